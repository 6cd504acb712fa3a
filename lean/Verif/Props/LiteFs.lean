import Verif.Proofs.LiteFs
import Verif.Props.Toy
/-!
# Properties C20, C25, C26, C50, C56, C57, C58: the lite file system above names and streams
-/

namespace Securefs.Props

open Securefs Spec

/-! ## C20 -/

/-- An attribute cryptor for the examples. -/
def Toy.xattr : XattrCfg := ⟨Toy.gcm, 12, true⟩

theorem xattr_stored {C : XattrCfg} (hg : C.gcm.Lawful) (iv v : Bytes) (hiv : iv.length = C.ivSize) :
    (C.encrypt iv v).length = v.length + C.ivSize + 16 := by
  unfold XattrCfg.encrypt
  simp only [List.length_append, hg.ct_len, hg.mac_len, hiv]
  omega

/-- C20: after setting a nonempty value, getting it with a buffer of exactly its size returns it.  Partial: larger buffers and
    the empty value are in the statement too, but there it is false, see the theorems below. -/
theorem C20_exact_buffer_partial (C : XattrCfg) (hg : C.gcm.Lawful) (old : Option Bytes) (iv v : Bytes)
    (hiv : iv.length = C.ivSize) (hv : v ≠ []) : C.get (C.set old iv v) v.length = .ok (v, v.length) := by
  have hpos := List.length_pos_iff.mpr hv
  have hs := xattr_stored hg iv v hiv
  unfold XattrCfg.set
  rw [if_neg (by omega)]
  unfold XattrCfg.get osGetXattr
  dsimp only
  rw [if_neg (by omega), hs, Nat.sub_self]
  dsimp only
  have h0 : C.encrypt iv v ++ zeros 0 = C.encrypt iv v := by simp [zeros]
  rw [h0]
  have hd : C.decrypt (C.encrypt iv v) v.length = .ok v := by
    unfold XattrCfg.decrypt
    rw [if_neg (by omega)]
    have e1 : (C.encrypt iv v).take C.ivSize = iv := by
      unfold XattrCfg.encrypt
      dsimp only
      rw [← hiv, List.append_assoc, List.take_left]
    have e2 : ((C.encrypt iv v).drop C.ivSize).take ((C.encrypt iv v).length - C.ivSize - 16) = (C.gcm.enc iv [] v).1 := by
      rw [hs]
      unfold XattrCfg.encrypt
      dsimp only
      rw [← hiv, List.append_assoc, List.drop_left]
      have : v.length + iv.length + 16 - iv.length - 16 = (C.gcm.enc iv [] v).1.length := by rw [hg.ct_len]; omega
      rw [this, List.take_left]
    have e3 : (C.encrypt iv v).drop ((C.encrypt iv v).length - 16) = (C.gcm.enc iv [] v).2 := by
      rw [hs]
      unfold XattrCfg.encrypt
      dsimp only
      have : v.length + C.ivSize + 16 - 16 = (iv ++ (C.gcm.enc iv [] v).1).length := by
        rw [List.length_append, hg.ct_len, hiv]; omega
      rw [this, List.drop_left]
    rw [e1, e2, e3, hg.dec_enc]
    simp
  rw [hd]
  unfold XattrCfg.inferDecrypted
  dsimp only
  rw [if_pos (by omega)]
  congr 2
  omega

example : Toy.xattr.get (Toy.xattr.set none (List.replicate 12 7) [1, 2, 3]) 3 = .ok ([1, 2, 3], 3) :=
  C20_exact_buffer_partial Toy.xattr Toy.gcm_lawful none _ [1, 2, 3] (by decide) (by decide)

/-- C20: asking for the size, and reading with a buffer that is too small. -/
theorem C20_size (C : XattrCfg) (hg : C.gcm.Lawful) (old : Option Bytes) (iv v : Bytes) (hiv : iv.length = C.ivSize)
    (hv : v ≠ []) : C.getSize (C.set old iv v) = .ok v.length ∧
      ∀ size, size < v.length → C.get (C.set old iv v) size = .error (.vfs 34) := by
  have hpos := List.length_pos_iff.mpr hv
  have hs := xattr_stored hg iv v hiv
  unfold XattrCfg.set
  rw [if_neg (by omega)]
  constructor
  · unfold XattrCfg.getSize XattrCfg.inferDecrypted
    dsimp only
    rw [if_pos (by omega)]
    congr 1
    omega
  · intro size hsz
    unfold XattrCfg.get osGetXattr
    dsimp only
    rw [if_pos (by omega)]
    rfl

example : Toy.xattr.getSize (Toy.xattr.set none (List.replicate 12 7) [1, 2, 3]) = .ok 3 :=
  (C20_size Toy.xattr Toy.gcm_lawful none _ [1, 2, 3] (by decide) (by decide)).1

/-- C20 is violated for larger buffers: with verification on, getting a value with a buffer larger than the value fails unless AES-GCM
    accepts, under the same IV, a ciphertext that is too long together with a tag that ends in zeros, that is, unless a
    forgery happens by itself. -/
theorem C20_larger_buffer_violated (C : XattrCfg) (hg : C.gcm.Lawful) (hver : C.verify = true) (old : Option Bytes) (iv v : Bytes) (size : Nat)
    (hiv : iv.length = C.ivSize) (hv : v ≠ []) (hsz : v.length < size) :
    C.get (C.set old iv v) size = .error .verify ∨
    ∃ ct tag, ct.length = size ∧ tag.length = 16 ∧ tag.getLast? = some 0 ∧ (C.gcm.dec iv [] ct tag).1 = true := by
  have hpos := List.length_pos_iff.mpr hv
  have hs := xattr_stored hg iv v hiv
  unfold XattrCfg.set
  rw [if_neg (by omega)]
  unfold XattrCfg.get osGetXattr
  dsimp only
  rw [if_neg (by omega), hs]
  dsimp only
  generalize hb : C.encrypt iv v ++ zeros (size + C.ivSize + 16 - (v.length + C.ivSize + 16)) = buf
  have hbl : buf.length = size + C.ivSize + 16 := by
    rw [← hb, List.length_append, hs]; simp only [zeros, List.length_replicate]; omega
  have e1 : buf.take C.ivSize = iv := by
    rw [← hb]
    unfold XattrCfg.encrypt
    dsimp only
    rw [← hiv, List.append_assoc, List.append_assoc, List.take_left]
  have hlast : (buf.drop (buf.length - 16)).getLast? = some 0 := by
    rw [List.getLast?_drop, if_neg (by omega), ← hb, List.getLast?_append]
    have : size + C.ivSize + 16 - (v.length + C.ivSize + 16) = (size - v.length - 1) + 1 := by omega
    rw [this]
    unfold zeros
    rw [List.getLast?_replicate, if_neg (by omega)]
    rfl
  unfold XattrCfg.decrypt
  rw [if_neg (by omega), e1]
  generalize hct : (buf.drop C.ivSize).take (buf.length - C.ivSize - 16) = ct
  have hctl : ct.length = size := by
    rw [← hct, List.length_take, List.length_drop, hbl]; omega
  have hdl := hg.dec_len iv [] ct (buf.drop (buf.length - 16))
  dsimp only
  rw [if_neg (by omega)]
  by_cases hok : (C.gcm.dec iv [] ct (buf.drop (buf.length - 16))).1 = true
  · exact Or.inr ⟨ct, buf.drop (buf.length - 16), hctl, by rw [List.length_drop, hbl]; omega, hlast, hok⟩
  · left
    rw [if_pos (by simp only [Bool.not_eq_true] at hok; rw [hok, hver]; rfl)]

set_option maxRecDepth 100000 in
/-- For the example cryptor it is the error. -/
example : Toy.xattr.get (Toy.xattr.set none (List.replicate 12 7) [1, 2, 3]) 4 = .error .verify := by decide +kernel

/-- C20 is violated for the empty value: setting it stores nothing, so the previous value stays, or there is still no attribute. -/
theorem C20_empty_violated (C : XattrCfg) (old : Option Bytes) (iv : Bytes) : C.set old iv [] = old ∧
    (∀ size, C.get (C.set none iv []) size = .error (.vfs 61)) ∧
    (C.gcm.Lawful → iv.length = C.ivSize → ∀ v, v ≠ [] → C.get (C.set (C.set old iv v) iv []) v.length = .ok (v, v.length)) :=
  ⟨rfl, fun _ => rfl, fun hg hiv v hv => C20_exact_buffer_partial C hg old iv v hiv hv⟩

example : Toy.xattr.get (Toy.xattr.set (Toy.xattr.set none (List.replicate 12 7) [1, 2, 3]) (List.replicate 12 7) []) 3 =
    .ok ([1, 2, 3], 3) := (C20_empty_violated Toy.xattr none _).2.2 Toy.gcm_lawful (by decide) [1, 2, 3] (by decide)

/-! ## C25 -/

/-- What an entry of the backing directory should be shown as: `.` and `..` as themselves; the backing name of a component as that
    component, if it is stored inline, or if its table row holds its encryption; and the following not at all: names that begin with a
    dot, names that are not base32, and names with the suffix that have no row, or whose row cannot be decrypted. -/
inductive Shown (T : NewStyle) (lookup : Lookup) : Bytes → Option Bytes → Prop where
  | self : Shown T lookup [46] (some [46])
  | parent : Shown T lookup [46, 46] (some [46, 46])
  | inline {u : Bytes} (v : Bytes) : v ≠ [] → v ≠ [46] → v ≠ [46, 46] → v.length ≤ T.threshold → T.encodeComponent v = .ok u → Shown T lookup u (some v)
  | long {u : Bytes} (v enc : Bytes) : v ≠ [46] → v ≠ [46, 46] → T.threshold < v.length → T.encodeComponent v = .ok u → lookup u = .ok enc →
      encodeName T.siv v = .ok enc → Shown T lookup u (some v)
  | hidden {u : Bytes} : u.head? = some 46 → u ≠ [46] → u ≠ [46, 46] → Shown T lookup u none
  | foreign {u : Bytes} (e : Err) : u.head? ≠ some 46 → (¬ ∃ p, u = p ++ T.suffix) → base32Decode u = .error e → Shown T lookup u none
  | noRow {u : Bytes} : u.head? ≠ some 46 → (∃ p, u = p ++ T.suffix) → (lookup u = .ok [] ∨ ∃ e, lookup u = .error e) → Shown T lookup u none
  | badRow {u : Bytes} (enc : Bytes) : u.head? ≠ some 46 → (∃ p, u = p ++ T.suffix) → lookup u = .ok enc →
      (∀ n d, base32Decode enc = .ok d → T.siv.encrypt n [] ≠ .ok (d.drop 16, d.take 16)) → Shown T lookup u none

/-- How `next` treats an entry, whatever comes after it and whatever name is left from before. -/
def Emits (L : ListCfg) (lookup : Lookup) (u : Bytes) : Option Bytes → Prop
  | some n => ∀ rest name, L.next lookup (u :: rest) name = some (n, rest)
  | none => ∀ rest name, L.next lookup (u :: rest) name = L.next lookup rest name

theorem next_translate {L : ListCfg} {lookup : Lookup} (hn : L.noOp = false) (u : Bytes) (hu : u ≠ []) (hd : u.head? ≠ some 46)
    (rest : List Bytes) (name : Bytes) : L.next lookup (u :: rest) name =
      match L.translate lookup u name with
      | none => L.next lookup rest name
      | some n => some (n, rest) := by
  rw [ListCfg.next]
  have h1 : ¬ u.isEmpty = true := by simpa using hu
  have h2 : ¬ (u == [dot] || u == [dot, dot]) = true := by
    intro e
    rw [Bool.or_eq_true, beq_iff_eq, beq_iff_eq] at e
    rcases e with e | e <;> exact hd (by rw [e]; rfl)
  have h3 : ¬ u.head? = some dot := hd
  rw [if_neg h1, if_neg h2, hn, if_neg (by simp), if_neg h3]
  cases L.translate lookup u name <;> rfl

theorem list_emits (L : ListCfg) (lookup : Lookup) (entries : List (Bytes × Option Bytes))
    (h : ∀ p ∈ entries, Emits L lookup p.1 p.2) : L.list lookup (entries.map Prod.fst) = .ok (entries.filterMap Prod.snd) := by
  have key : ∀ (entries : List (Bytes × Option Bytes)) (fuel : Nat) (name : Bytes), (∀ p ∈ entries, Emits L lookup p.1 p.2) →
      entries.length < fuel → L.listLoop lookup fuel (entries.map Prod.fst) name = .ok (entries.filterMap Prod.snd) := by
    intro entries
    induction entries with
    | nil =>
      intro fuel name _ hf
      cases fuel with
      | zero => omega
      | succ f => rfl
    | cons p l ih =>
      intro fuel name hl hf
      cases fuel with
      | zero => simp only [List.length_cons] at hf; omega
      | succ f =>
        obtain ⟨u, o⟩ := p
        have hp := hl (u, o) List.mem_cons_self
        have hr := fun x hx => hl x (List.mem_cons_of_mem _ hx)
        simp only [List.length_cons] at hf
        cases o with
        | none =>
          have h1 := ih (f + 1) name hr (by omega)
          unfold ListCfg.listLoop at h1 ⊢
          rw [List.map_cons, hp]
          exact h1
        | some n =>
          have h1 := ih f n hr (by omega)
          unfold ListCfg.listLoop
          rw [List.map_cons, hp]
          dsimp only
          rw [h1]
          rfl
  unfold ListCfg.list
  exact key entries _ [] h (by simp)

theorem shown_emits {T : NewStyle} (hS : T.siv.WF) (hf : ForeignSuffix T) {lookup : Lookup} {u : Bytes} {o : Option Bytes}
    (h : Shown T lookup u o) : Emits T.listCfg lookup u o := by
  have name_head : ∀ v u, v ≠ [] → T.encodeComponent v = .ok u → u ≠ [] ∧ u.head? ≠ some 46 := by
    intro v u hv he
    by_cases hl : v.length ≤ T.threshold
    · rw [encodeComponent_inline v hv hl] at he
      obtain ⟨s, c, w, g1, _, _, _, _, _, _, _, g9⟩ := encodeName_spec hS v
      rw [he] at g1; cases g1
      refine ⟨encodeName_ne hS v u he, ?_⟩
      cases u with
      | nil => simp
      | cons x r =>
        intro e
        cases e
        exact dot_notin_alphabet (g9 46 List.mem_cons_self)
    · obtain ⟨s, h1, h2⟩ := encodeComponent_long hS v (by omega)
      rw [he] at h2; cases h2
      obtain ⟨s', c, w, g1, _, _, _, _, _, _, _, g9⟩ := encodeName_spec hS (T.hash v)
      rw [h1] at g1; cases g1
      have := encodeName_ne hS _ s h1
      cases s with
      | nil => exact absurd rfl this
      | cons x r =>
        refine ⟨by simp, ?_⟩
        intro e
        cases e
        exact dot_notin_alphabet (g9 46 List.mem_cons_self)
  have suffix_ne : T.suffix ≠ [] := by
    obtain ⟨x, hx, _⟩ := hf
    intro e; rw [e] at hx; cases hx
  have drop : ∀ u, u ≠ [] → u.head? ≠ some 46 → (∀ name, T.listCfg.translate lookup u name = none) → Emits T.listCfg lookup u none := by
    intro u h1 h2 h3 rest name
    rw [next_translate rfl u h1 h2, h3]
  cases h with
  | self => intro rest name; rfl
  | parent => intro rest name; rfl
  | inline v hv hd hd' hl he =>
    intro rest name
    obtain ⟨h1, h2⟩ := name_head v u hv he
    rw [next_translate rfl u h1 h2]
    obtain ⟨s, g1, g2⟩ := C21_inline_partial T hS hf v hv hl
    rw [he] at g1; cases g1
    simp only [ListCfg.translate, NewStyle.listCfg, g2]
  | long v enc hd hd' hl he hlk hen =>
    intro rest name
    have hv : v ≠ [] := by intro e; subst e; simp at hl
    obtain ⟨h1, h2⟩ := name_head v u hv he
    rw [next_translate rfl u h1 h2]
    obtain ⟨s, pre, g1, _, g2⟩ := C21_long T hS v hl
    rw [he] at g1; cases g1
    have g3 : T.decryptComponent enc = .ok (.name v) := by
      obtain ⟨s', c, w, k1, _, _, _, _, _, _, _, k9⟩ := encodeName_spec hS v
      rw [hen] at k1; cases k1
      unfold NewStyle.decryptComponent
      rw [not_endsWith_of_foreign hf enc k9]
      exact decodeName_encodeName hS v enc hv hen
    simp only [ListCfg.translate, NewStyle.listCfg, g2, hlk, g3]
  | hidden hh h1 h2 =>
    intro rest name
    rw [ListCfg.next]
    have hu : u ≠ [] := by intro e; subst e; cases hh
    have e1 : ¬ u.isEmpty = true := by simpa using hu
    have e2 : ¬ (u == [dot] || u == [dot, dot]) = true := by
      intro e
      rw [Bool.or_eq_true, beq_iff_eq, beq_iff_eq] at e
      rcases e with e | e
      · exact h1 e
      · exact h2 e
    have e3 : u.head? = some dot := hh
    rw [if_neg e1, if_neg e2, if_neg (by simp [NewStyle.listCfg]), if_pos e3]
  | foreign e hh hs hb =>
    have hu : u ≠ [] := by
      intro e'; subst e'
      have : base32Decode [] = .ok [] := by decide +kernel
      rw [this] at hb; cases hb
    apply drop u hu hh
    intro name
    have : endsWith u T.suffix = false := by
      rw [Bool.eq_false_iff]
      exact fun e => hs ((endsWith_iff _ _).mp e)
    simp only [ListCfg.translate, NewStyle.listCfg, NewStyle.decryptComponent, this, decodeName, hb]
    rfl
  | noRow hh hs hl =>
    have hu : u ≠ [] := by
      intro e'; subst e'
      obtain ⟨p, e⟩ := hs
      exact suffix_ne (List.append_eq_nil_iff.mp e.symm).2
    apply drop u hu hh
    intro name
    have he : endsWith u T.suffix = true := (endsWith_iff _ _).mpr hs
    have hnil : T.decryptComponent [] = .ok .invalid := by
      have : endsWith [] T.suffix = false := by
        rw [Bool.eq_false_iff]
        intro e
        obtain ⟨p, e⟩ := (endsWith_iff _ _).mp e
        exact suffix_ne (List.append_eq_nil_iff.mp e.symm).2
      unfold NewStyle.decryptComponent
      rw [this]
      rfl
    rcases hl with hl | ⟨e, hl⟩
    · simp only [ListCfg.translate, NewStyle.listCfg, hl, hnil]
      simp only [NewStyle.decryptComponent, he, if_true]
    · simp only [ListCfg.translate, NewStyle.listCfg, hl]
      simp only [NewStyle.decryptComponent, he, if_true]
  | badRow enc hh hs hl hb =>
    have hu : u ≠ [] := by
      intro e'; subst e'
      obtain ⟨p, e⟩ := hs
      exact suffix_ne (List.append_eq_nil_iff.mp e.symm).2
    apply drop u hu hh
    intro name
    have he : endsWith u T.suffix = true := (endsWith_iff _ _).mpr hs
    have hno : ∀ n, T.decryptComponent enc ≠ .ok (.name n) := by
      intro n e
      rcases C24_component T hS enc with h | ⟨h, _⟩ | ⟨m, c, v, _, _, h2, h3, h4⟩ | h | h
      · rw [h] at e; cases e
      · rw [h] at e; cases e
      · refine hb m _ h2 ?_
        rw [← h3, List.drop_left, List.take_left]
        exact h4
      · rw [h] at e; cases e
      · rw [h] at e; cases e
    have hu2 : T.decryptComponent u = .ok .long := by simp only [NewStyle.decryptComponent, he, if_true]
    simp only [ListCfg.translate, NewStyle.listCfg, hu2, hl]

/-- C25: listing a directory shows every entry as it should be shown, in the order of the backing directory, and nothing else.
    Partial: names that are base32 but do not authenticate are not covered, because they are not skipped
    (`C25_invalid_violated`); and of genuine names only the spelling the file system itself produces is
    (`C25_spelling_violated`).  The suffix must have a character foreign to base32, as in C21. -/
theorem C25_listing_partial (T : NewStyle) (hS : T.siv.WF) (hf : ForeignSuffix T) (lookup : Lookup)
    (entries : List (Bytes × Option Bytes)) (h : ∀ p ∈ entries, Shown T lookup p.1 p.2) :
    T.listCfg.list lookup (entries.map Prod.fst) = .ok (entries.filterMap Prod.snd) :=
  list_emits _ _ _ fun p hp => shown_emits hS hf (h p hp)

theorem nodup_names (entries : List (Bytes × Option Bytes)) (hd : (entries.map Prod.fst).Nodup)
    (det : ∀ u u' n, (u, some n) ∈ entries → (u', some n) ∈ entries → u = u') : (entries.filterMap Prod.snd).Nodup := by
  induction entries with
  | nil => simp
  | cons p l ih =>
    rw [List.map_cons, List.nodup_cons] at hd
    have ih' := ih hd.2 fun u u' n h h' => det u u' n (List.mem_cons_of_mem _ h) (List.mem_cons_of_mem _ h')
    obtain ⟨u, o⟩ := p
    cases o with
    | none => simpa using ih'
    | some n =>
      rw [List.filterMap_cons_some (f := Prod.snd) (a := (u, some n)) (b := n) rfl, List.nodup_cons]
      refine ⟨?_, ih'⟩
      intro hm
      obtain ⟨⟨u', o'⟩, hx, he⟩ := List.mem_filterMap.mp hm
      dsimp only at he
      subst he
      have := det u u' n List.mem_cons_self (List.mem_cons_of_mem _ hx)
      exact hd.1 (List.mem_map.mpr ⟨(u', some n), hx, this.symm⟩)

/-- C25: no name is shown twice. -/
theorem C25_once_partial (T : NewStyle) (lookup : Lookup) (entries : List (Bytes × Option Bytes))
    (h : ∀ p ∈ entries, Shown T lookup p.1 p.2) (hd : (entries.map Prod.fst).Nodup) : (entries.filterMap Prod.snd).Nodup := by
  have det : ∀ u u' n, Shown T lookup u (some n) → Shown T lookup u' (some n) → u = u' := by
    have c : ∀ u n, Shown T lookup u (some n) → (n = [46] ∧ u = [46]) ∨ (n = [46, 46] ∧ u = [46, 46]) ∨
        (n ≠ [46] ∧ n ≠ [46, 46] ∧ T.encodeComponent n = .ok u) := by
      intro u n h
      cases h with
      | self => exact Or.inl ⟨rfl, rfl⟩
      | parent => exact Or.inr (Or.inl ⟨rfl, rfl⟩)
      | inline _ _ h1 h2 _ h3 => exact Or.inr (Or.inr ⟨h1, h2, h3⟩)
      | long _ _ h1 h2 _ h3 => exact Or.inr (Or.inr ⟨h1, h2, h3⟩)
    intro u u' n h h'
    rcases c u n h with ⟨e, e2⟩ | ⟨e, e2⟩ | ⟨e, e1, e2⟩ <;> rcases c u' n h' with ⟨g, g2⟩ | ⟨g, g2⟩ | ⟨g, g1, g2⟩
    · rw [e2, g2]
    · rw [e] at g; cases g
    · exact absurd e g
    · rw [e] at g; cases g
    · rw [e2, g2]
    · exact absurd e g1
    · exact absurd g e
    · exact absurd g e1
    · rw [e2] at g2; exact Except.ok.inj g2
  exact nodup_names entries hd fun u u' n h1 h2 => det u u' n (h _ h1) (h _ h2)

/-- The hypotheses hold for a directory with `.`, a short name, a long name, the table and a foreign file. -/
example : ∃ (entries : List (Bytes × Option Bytes)) (lookup : Lookup), (∀ p ∈ entries, Shown Toy.names lookup p.1 p.2) ∧ (entries.map Prod.fst).Nodup ∧
    entries.filterMap Prod.snd = [[46], [97], List.replicate 40 98] := by
  obtain ⟨u1, h1, _⟩ := C21_inline_partial Toy.names Toy.siv_wf Toy.names_foreign [97] (by decide) (by decide)
  obtain ⟨u2, pre, h2, h3, _⟩ := C21_long Toy.names Toy.siv_wf (List.replicate 40 98) (by decide)
  obtain ⟨enc, _, _, h4, _⟩ := encodeName_spec Toy.siv_wf (List.replicate 40 98)
  have hh : ∀ m, (Toy.names.hash m).length = 32 := by intro m; simp [Toy.names, zeros]
  obtain ⟨s1, k1, _, k2, _⟩ := C22_legal Toy.names Toy.siv_wf hh [97] (by decide)
  obtain ⟨s2, k3, _, k4, _⟩ := C22_legal Toy.names Toy.siv_wf hh (List.replicate 40 98) (by decide)
  rw [h1] at k1; cases k1
  rw [h2] at k3; cases k3
  refine ⟨[([46], some [46]), (u1, some [97]), (u2, some (List.replicate 40 98)), ([46, 108], none)], fun _ => .ok enc, ?_, ?_, rfl⟩
  · intro p hp
    simp only [List.mem_cons, List.not_mem_nil, or_false] at hp
    rcases hp with rfl | rfl | rfl | rfl
    · exact .self
    · exact .inline _ (by decide) (by decide) (by decide) (by decide) h1
    · exact .long _ enc (by decide) (by decide) (by decide) h2 rfl h4
    · exact .hidden rfl (by decide) (by decide)
  · have a1 : u1 ≠ u2 := by
      intro e
      rw [← e] at h2
      rcases C21_injective_partial Toy.names Toy.siv_wf Toy.names_foreign _ _ _ h1 h2 with e | ⟨e, _⟩
      · revert e; decide
      · revert e; decide
    have a2 : ∀ x : Bytes, x.head? ≠ some 46 → x ≠ [46] ∧ x ≠ [46, 108] := by
      intro x hx; constructor <;> (intro e; subst e; exact hx rfl)
    have b1 := a2 u1 k2
    have b2 := a2 u2 k4
    simp [a1, b1, b2, b1.1.symm, b2.1.symm]

/-- C25 is violated: a backing name that does not begin with a dot, does not carry the suffix, and spells bytes that do not authenticate, is
    not skipped.  It is shown under the name shown before it, a second time, or under the empty name. -/
theorem C25_invalid_violated (T : NewStyle) (lookup : Lookup) (u : Bytes) (hu : u ≠ []) (hd : u.head? ≠ some 46)
    (hi : T.decryptComponent u = .ok .invalid) : T.listCfg.list lookup [u] = .ok [[]] ∧
      T.listCfg.list lookup [[46], u] = .ok [[46], [46]] := by
  have h1 : ∀ rest name, T.listCfg.next lookup (u :: rest) name = some (name, rest) := by
    intro rest name
    rw [next_translate rfl u hu hd]
    simp only [ListCfg.translate, NewStyle.listCfg, hi]
  constructor
  · simp only [ListCfg.list, ListCfg.listLoop, List.length_cons, List.length_nil, h1]
    rfl
  · have h2 : T.listCfg.next lookup [[46], u] [] = some ([46], [u]) := rfl
    simp only [ListCfg.list, ListCfg.listLoop, List.length_cons, List.length_nil, h2, h1]
    rfl

example : Toy.names.decryptComponent [65, 65] = .ok .invalid := by decide +kernel

/-- C25 is violated by other spellings: two different backing names, one of them not produced by the file system but accepted by the decoder,
    are shown under the same name. -/
theorem C25_spelling_violated : ∃ u u', u ≠ u' ∧ Toy.names.encodeComponent [97] = .ok u ∧
    Toy.names.listCfg.list (fun _ => .ok []) [u, u'] = .ok [[97], [97]] :=
  ⟨[78, 71] ++ List.replicate 24 65 ++ [68, 83], [110, 103] ++ List.replicate 24 65 ++ [68, 83], by decide, by decide +kernel, by decide +kernel⟩

/-- What an entry should be shown as if names are encrypted by the legacy translator. -/
inductive LegacyShown (S : Siv) : Bytes → Option Bytes → Prop where
  | self : LegacyShown S [46] (some [46])
  | parent : LegacyShown S [46, 46] (some [46, 46])
  | name {u : Bytes} (v : Bytes) : v ≠ [] → v ≠ [46] → v ≠ [46, 46] → encodeName S v = .ok u → LegacyShown S u (some v)
  | hidden {u : Bytes} : u.head? = some 46 → u ≠ [46] → u ≠ [46, 46] → LegacyShown S u none
  | foreign {u : Bytes} (e : Err) : u.head? ≠ some 46 → base32Decode u = .error e → LegacyShown S u none

/-- C25 for the legacy translator; partial for the same reasons. -/
theorem C25_legacy_listing_partial (S : Siv) (hS : S.WF) (lookup : Lookup) (entries : List (Bytes × Option Bytes))
    (h : ∀ p ∈ entries, LegacyShown S p.1 p.2) :
    (legacyListCfg S).list lookup (entries.map Prod.fst) = .ok (entries.filterMap Prod.snd) ∧
    ((entries.map Prod.fst).Nodup → (entries.filterMap Prod.snd).Nodup) := by
  constructor
  · apply list_emits
    intro p hp
    obtain ⟨u, o⟩ := p
    have hu := h _ hp
    dsimp only at hu ⊢
    cases hu with
    | self => intro rest name; rfl
    | parent => intro rest name; rfl
    | name v hv hd hd' he =>
      intro rest name
      have hne := encodeName_ne hS v u he
      have hh : u.head? ≠ some 46 := by
        obtain ⟨s, c, w, g1, _, _, _, _, _, _, _, g9⟩ := encodeName_spec hS v
        rw [he] at g1; cases g1
        cases u with
        | nil => simp
        | cons x r =>
          intro e
          cases e
          exact dot_notin_alphabet (g9 46 List.mem_cons_self)
      rw [next_translate rfl u hne hh]
      simp only [ListCfg.translate, legacyListCfg, decodeName_encodeName hS v u hv he]
    | hidden hh h1 h2 =>
      intro rest name
      rw [ListCfg.next]
      have hu : u ≠ [] := by intro e; subst e; cases hh
      have e1 : ¬ u.isEmpty = true := by simpa using hu
      have e2 : ¬ (u == [dot] || u == [dot, dot]) = true := by
        intro e
        rw [Bool.or_eq_true, beq_iff_eq, beq_iff_eq] at e
        rcases e with e | e
        · exact h1 e
        · exact h2 e
      have e3 : u.head? = some dot := hh
      rw [if_neg e1, if_neg e2, if_neg (by simp [legacyListCfg]), if_pos e3]
    | foreign e hh hb =>
      intro rest name
      have hu : u ≠ [] := by
        intro e'; subst e'
        have : base32Decode [] = .ok [] := by decide +kernel
        rw [this] at hb; cases hb
      rw [next_translate rfl u hu hh]
      simp only [ListCfg.translate, legacyListCfg, decodeName, hb]
  · intro hd
    have c : ∀ u n, LegacyShown S u (some n) → (n = [46] ∧ u = [46]) ∨ (n = [46, 46] ∧ u = [46, 46]) ∨
        (n ≠ [46] ∧ n ≠ [46, 46] ∧ encodeName S n = .ok u) := by
      intro u n h
      cases h with
      | self => exact Or.inl ⟨rfl, rfl⟩
      | parent => exact Or.inr (Or.inl ⟨rfl, rfl⟩)
      | name _ _ h1 h2 h3 => exact Or.inr (Or.inr ⟨h1, h2, h3⟩)
    apply nodup_names entries hd
    intro u u' n h1 h2
    have h1 := h _ h1
    have h2 := h _ h2
    rcases c u n h1 with ⟨e, e2⟩ | ⟨e, e2⟩ | ⟨e, e1, e2⟩ <;> rcases c u' n h2 with ⟨g, g2⟩ | ⟨g, g2⟩ | ⟨g, g1, g2⟩
    · rw [e2, g2]
    · rw [e] at g; cases g
    · exact absurd e g
    · rw [e] at g; cases g
    · rw [e2, g2]
    · exact absurd e g1
    · exact absurd g e
    · exact absurd g e1
    · rw [e2] at g2; exact Except.ok.inj g2

example : ∃ u, ∀ p ∈ [([46, 46], some [46, 46]), (u, some [97]), ([46, 108], none), ([33], none)], LegacyShown Toy.siv p.1 p.2 := by
  obtain ⟨s, _, _, h, _⟩ := encodeName_spec Toy.siv_wf [97]
  refine ⟨s, ?_⟩
  intro p hp
  simp only [List.mem_cons, List.not_mem_nil, or_false] at hp
  rcases hp with rfl | rfl | rfl | rfl
  · exact .parent
  · exact .name _ (by decide) (by decide) (by decide) h
  · exact .hidden rfl (by decide) (by decide)
  · exact .foreign .invalidArg (by decide) (by decide +kernel)

/-! ## C26 -/

/-- The empty backing tree. -/
def noTree : LTree := ⟨fun _ => [], fun _ => []⟩

/-- The operations on which the tables stay consistent: the table is committed; a directory to be removed has no long-named entries;
    a long-named file is not renamed onto another link of itself; a new directory is not its own parent. -/
def Benign (T : NewStyle) (t : LTree) : LOp → Prop
  | .create _ _ _ _ commit => commit = true
  | .symlink _ _ _ _ commit => commit = true
  | .link _ _ _ _ commit => commit = true
  | .mkdir d _ id _ commit => commit = true ∧ id ≠ d
  | .unlink _ _ _ commit => commit = true
  | .rmdir d v _ commit => commit = true ∧ ∀ b id, T.encodeComponent v = .ok b → (t.entries d).lookup b = some (.dir id) →
      ∀ m node, (t.entries id).lookup m = some node → ¬ ∃ p, m = p ++ T.suffix
  | .rename d v d' v' _ commit => commit = true ∧ (T.threshold < v.length → ∀ b b', T.encodeComponent v = .ok b → T.encodeComponent v' = .ok b' →
      (d, b) ≠ (d', b') → (t.entries d).lookup b ≠ none → (t.entries d').lookup b' ≠ (t.entries d).lookup b)

/-- Every operation of a history is benign when it is its turn. -/
def BenignHistory (T : NewStyle) (t : LTree) : List LOp → Prop
  | [] => True
  | op :: rest => Benign T t op ∧ BenignHistory T (T.step t op).2 rest

/-- Every long-named entry has a row that decrypts to a component with that backing name. -/
def TablesConsistent (T : NewStyle) (t : LTree) : Prop :=
  ∀ d n node, (t.entries d).lookup n = some node → (∃ p, n = p ++ T.suffix) →
    ∃ enc v, (t.rows d).lookup n = some enc ∧ T.decryptComponent enc = .ok (.name v) ∧ T.encodeComponent v = .ok n

theorem step_inv {T : NewStyle} (hS : T.siv.WF) (hf : ForeignSuffix T) {t : LTree} (h : LInv T t) (op : LOp) (hb : Benign T t op) :
    LInv T (T.step t op).2 := by
  have nm : ∀ v, ∃ n, T.lname v = .ok n ∧ T.encodeComponent v = .ok n.backing ∧ (n.full ≠ [] → T.threshold < v.length) ∧
      ((n.full = [] ∧ endsWith n.backing T.suffix = false) ∨ (n.full ≠ [] ∧ GoodRow T n.backing n.full)) := by
    intro v
    obtain ⟨n, h1, h2, h3⟩ := lname_spec hS hf v
    refine ⟨n, h1, h2, ?_, ?_⟩
    · rcases h3 with h3 | h3
      · exact fun e => absurd h3.1 e
      · exact fun _ => h3.2.1
    · rcases h3 with h3 | h3
      · exact Or.inl ⟨h3.1, h3.2.2⟩
      · exact Or.inr ⟨h3.1, h3.2.2⟩
  have add : ∀ d v node fault, ∀ n, T.lname v = .ok n → LInv T (withLongName d n .create true (sysCall fault (sysAdd d n.backing node)) t).2 := by
    intro d v node fault n hn
    obtain ⟨n', h1, _, _, h3⟩ := nm v
    rw [hn] at h1; cases h1
    obtain ⟨f1, f2, f3⟩ := sysAdd_facts fault d n.backing node
    exact withLongName_simple t h d n .create _ h3 f1 f2 (fun t k m x a b => by
      rcases f3 t k m x a b with e | ⟨e1, e2⟩
      · exact Or.inl ⟨e, fun e => by cases e⟩
      · exact Or.inr ⟨e1, e2, rfl⟩)
  cases op with
  | create d v ino fault commit =>
    obtain rfl : commit = true := hb
    obtain ⟨n, h1, _⟩ := nm v
    simp only [NewStyle.step, h1]
    exact add d v _ fault n h1
  | symlink d v ino fault commit =>
    obtain rfl : commit = true := hb
    obtain ⟨n, h1, _⟩ := nm v
    simp only [NewStyle.step, h1]
    exact add d v _ fault n h1
  | link node d v fault commit =>
    obtain rfl : commit = true := hb
    obtain ⟨n, h1, _⟩ := nm v
    simp only [NewStyle.step, h1]
    exact add d v _ fault n h1
  | mkdir d v id fault commit =>
    obtain ⟨rfl, hid⟩ := hb
    obtain ⟨n, h1, _, _, h3⟩ := nm v
    simp only [NewStyle.step, h1]
    exact mkdir_inv h d id n hid fault h3
  | unlink d v fault commit =>
    obtain rfl : commit = true := hb
    obtain ⟨n, h1, _, _, h3⟩ := nm v
    simp only [NewStyle.step, h1]
    obtain ⟨f1, f2, f3⟩ := sysUnlink_facts fault d n.backing
    exact withLongName_simple t h d n .delete _ h3 f1 f2 (fun t k m x a b =>
      Or.inl ⟨(f3 t k m x a b).1, fun _ => (f3 t k m x a b).2⟩)
  | rmdir d v fault commit =>
    obtain ⟨rfl, hb⟩ := hb
    obtain ⟨n, h1, h2, _, h3⟩ := nm v
    simp only [NewStyle.step, h1]
    refine rmdir_inv h d n fault ?_
    intro id hl m node hm
    rw [Bool.eq_false_iff]
    exact fun e => hb _ id h2 hl m node hm ((endsWith_iff _ _).mp e)
  | rename d v d' v' fault commit =>
    obtain ⟨rfl, hb⟩ := hb
    obtain ⟨n, h1, h2, hl, _⟩ := nm v
    obtain ⟨n', g1, g2, _, g3⟩ := nm v'
    simp only [NewStyle.step, h1, g1]
    exact rename_inv h d d' n n' fault g3 (fun hfull hne hex => hb (hl hfull) _ _ h2 g2 hne hex)

/-- C26: after any benign history from the empty tree, the tables are consistent.  Partial: the histories that are not benign are in the statement too,
    but there it is false, see the theorems below. -/
theorem C26_partial (T : NewStyle) (hS : T.siv.WF) (hf : ForeignSuffix T) (ops : List LOp)
    (hb : BenignHistory T noTree ops) : TablesConsistent T (T.run noTree ops) := by
  have key : ∀ (ops : List LOp) (t : LTree), LInv T t → BenignHistory T t ops → LInv T (T.run t ops) := by
    intro ops
    induction ops with
    | nil => intro t h _; exact h
    | cons op rest ih => intro t h hb; exact ih _ (step_inv hS hf h op hb.1) hb.2
  have h := key ops noTree
    ⟨fun d n e he => (by simp [noTree] at he), fun d n x he _ => (by simp [noTree] at he)⟩ hb
  intro d n node hn hp
  have := h.2 d n node hn ((endsWith_iff _ _).mpr hp)
  cases he : ((T.run noTree ops).rows d).lookup n with
  | none => exact absurd he this
  | some enc =>
    obtain ⟨v, h1, h2⟩ := h.1 d n enc he
    exact ⟨enc, v, rfl, h1, h2⟩

/-- C26: so every long-named entry is shown in the listing of its directory, under a name that leads back to it. -/
theorem C26_listed_partial (T : NewStyle) (hS : T.siv.WF) (hf : ForeignSuffix T) (ops : List LOp)
    (hb : BenignHistory T noTree ops) (d : Nat) (n : Bytes) (node : LNode) (t : LTree)
    (ht : t = T.run noTree ops) (hn : (t.entries d).lookup n = some node) (hd : n.head? ≠ some 46)
    (hp : ∃ p, n = p ++ T.suffix) (under : List Bytes) (hu : n ∈ under) :
    ∃ names v, T.listCfg.list (tableLookup (t.rows d)) under = .ok names ∧ v ∈ names ∧ T.encodeComponent v = .ok n := by
  subst ht
  obtain ⟨enc, v, h1, h2, h3⟩ := C26_partial T hS hf ops hb d n node hn hp
  generalize hlk : tableLookup ((T.run noTree ops).rows d) = lookup
  have hl : lookup n = .ok enc := by rw [← hlk, tableLookup, h1]
  have hne : n ≠ [] := by
    intro e; subst e
    obtain ⟨p, e⟩ := hp
    obtain ⟨x, hx, _⟩ := hf
    rw [(List.append_eq_nil_iff.mp e.symm).2] at hx
    cases hx
  have hem : Emits T.listCfg lookup n (some v) := by
    intro rest name
    rw [next_translate rfl n hne hd]
    have : T.decryptComponent n = .ok .long := by
      simp only [NewStyle.decryptComponent, (endsWith_iff _ _).mpr hp, if_true]
    simp only [ListCfg.translate, NewStyle.listCfg, this, hl, h2]
  have key : ∀ (fuel : Nat) (under : List Bytes) (name : Bytes), under.length < fuel → ∃ names, T.listCfg.listLoop lookup fuel under name = .ok names ∧
      (n ∈ under → v ∈ names) := by
    intro fuel
    induction fuel with
    | zero => intro under name h; omega
    | succ f ih =>
      intro under name hf
      unfold ListCfg.listLoop
      cases hx : T.listCfg.next lookup under name with
      | none =>
        refine ⟨[], rfl, ?_⟩
        intro hm
        exfalso
        clear ih hf
        induction under generalizing name with
        | nil => cases hm
        | cons u us ihu =>
          rcases List.mem_cons.mp hm with rfl | hm
          · rw [hem] at hx; cases hx
          · have : T.listCfg.next lookup us name = none := by
              unfold ListCfg.next at hx
              repeat (split at hx; · first | exact hx | cases hx)
              all_goals first | exact hx | cases hx
            exact ihu name this hm
      | some r =>
        obtain ⟨w, rest⟩ := r
        have hlt := next_shorter _ _ _ _ _ _ hx
        obtain ⟨names, g1, g2⟩ := ih rest w (by omega)
        dsimp only
        rw [g1]
        refine ⟨w :: names, rfl, ?_⟩
        intro hm
        have : w = v ∨ n ∈ rest := by
          clear ih hf hlt g1 g2
          induction under generalizing name with
          | nil => cases hm
          | cons u us ihu =>
            rcases List.mem_cons.mp hm with rfl | hm
            · rw [hem] at hx; cases hx; exact Or.inl rfl
            · have : T.listCfg.next lookup us name = some (w, rest) ∨ us = rest := by
                unfold ListCfg.next at hx
                repeat (split at hx; · first | exact Or.inl hx | (cases hx; exact Or.inr rfl))
                all_goals first | exact Or.inl hx | (cases hx; exact Or.inr rfl)
              rcases this with e | e
              · exact ihu name e hm
              · subst e; exact Or.inr hm
        rcases this with rfl | hm
        · exact List.mem_cons_self
        · exact List.mem_cons_of_mem _ (g2 hm)
  obtain ⟨names, g1, g2⟩ := key (under.length + 1) under [] (by omega)
  exact ⟨names, v, g1, g2 hu, h3⟩

/-- Long names for the examples. -/
def Toy.longA : Bytes := List.replicate 6 97
@[inherit_doc Toy.longA] def Toy.longB : Bytes := List.replicate 7 98

/-- `Benign` as a check, to evaluate it in examples. -/
def benignCheck (T : NewStyle) (t : LTree) : LOp → Bool
  | .create _ _ _ _ commit => commit
  | .symlink _ _ _ _ commit => commit
  | .link _ _ _ _ commit => commit
  | .mkdir d _ id _ commit => commit && id != d
  | .unlink _ _ _ commit => commit
  | .rmdir d v _ commit => commit &&
    match T.encodeComponent v with
    | .error _ => true
    | .ok b =>
      match (t.entries d).lookup b with
      | some (.dir id) => (t.entries id).all fun p => !endsWith p.1 T.suffix
      | _ => true
  | .rename d v d' v' _ commit => commit &&
    match T.encodeComponent v, T.encodeComponent v' with
    | .ok b, .ok b' => decide (v.length ≤ T.threshold) || (d, b) == (d', b') || (t.entries d).lookup b == none ||
        (t.entries d').lookup b' != (t.entries d).lookup b
    | _, _ => true

theorem mem_of_lookup {α : Type} {l : List (Bytes × α)} {n : Bytes} {x : α} (h : l.lookup n = some x) : (n, x) ∈ l := by
  induction l with
  | nil => cases h
  | cons p l ih =>
    obtain ⟨k, y⟩ := p
    rw [List.lookup_cons] at h
    by_cases e : n = k
    · subst e; simp at h; subst h; exact List.mem_cons_self
    · rw [beq_false_of_ne e] at h
      exact List.mem_cons_of_mem _ (ih h)

theorem benign_of_check {T : NewStyle} {t : LTree} {op : LOp} (h : benignCheck T t op = true) : Benign T t op := by
  cases op with
  | create | symlink | link | unlink => exact h
  | mkdir d v id fault commit =>
    simp only [benignCheck, Bool.and_eq_true, bne_iff_ne] at h
    exact h
  | rmdir d v fault commit =>
    simp only [benignCheck, Bool.and_eq_true] at h
    refine ⟨h.1, ?_⟩
    intro b id hb hl m node hm hp
    have h2 := h.2
    rw [hb] at h2
    dsimp only at h2
    rw [hl] at h2
    have := List.all_eq_true.mp h2 _ (mem_of_lookup hm)
    rw [(endsWith_iff _ _).mpr hp] at this
    cases this
  | rename d v d' v' fault commit =>
    simp only [benignCheck, Bool.and_eq_true] at h
    refine ⟨h.1, ?_⟩
    intro ht b b' hb hb' hne hex
    have h2 := h.2
    rw [hb, hb'] at h2
    simp only [Bool.or_eq_true, decide_eq_true_eq, beq_iff_eq, bne_iff_ne] at h2
    rcases h2 with ((h2 | h2) | h2) | h2
    · omega
    · exact absurd h2 hne
    · exact absurd h2 hex
    · exact h2

/-- `BenignHistory` as a check, to evaluate it in examples. -/
def benignHistoryCheck (T : NewStyle) (t : LTree) : List LOp → Bool
  | [] => true
  | op :: rest => benignCheck T t op && benignHistoryCheck T (T.step t op).2 rest

theorem benignHistory_of_check {T : NewStyle} : ∀ {ops : List LOp} {t : LTree}, benignHistoryCheck T t ops = true → BenignHistory T t ops
  | [], _, _ => trivial
  | op :: rest, t, h => by
    simp only [benignHistoryCheck, Bool.and_eq_true] at h
    exact ⟨benign_of_check h.1, benignHistory_of_check h.2⟩

/-- Whether a directory has a long-named entry without a row, to evaluate it in examples. -/
def lostEntry (T : NewStyle) (t : LTree) (d : Nat) : Bool :=
  (t.entries d).any fun p => endsWith p.1 T.suffix && (t.rows d).lookup p.1 == none

theorem inconsistent_of_lost {T : NewStyle} {t : LTree} {d : Nat} (h : lostEntry T t d = true) : ¬ TablesConsistent T t := by
  intro hc
  obtain ⟨⟨n, x⟩, hm, hp⟩ := List.any_eq_true.mp h
  simp only [Bool.and_eq_true, beq_iff_eq] at hp
  have : ∃ y, (t.entries d).lookup n = some y := by
    generalize t.entries d = l at hm
    clear hp h hc
    induction l with
    | nil => cases hm
    | cons q l ih =>
      obtain ⟨k, y⟩ := q
      rw [List.lookup_cons]
      by_cases e : n = k
      · subst e; exact ⟨y, by simp⟩
      · rw [beq_false_of_ne e]
        rcases List.mem_cons.mp hm with hm | hm
        · cases hm; exact absurd rfl e
        · exact ih hm
  obtain ⟨y, hy⟩ := this
  obtain ⟨enc, v, h1, _⟩ := hc d n y hy ((endsWith_iff _ _).mp hp.1)
  rw [hp.2] at h1
  cases h1

set_option maxRecDepth 100000 in
/-- A benign history that makes, links, moves and removes long names, with a failing operation; at the end there are long-named
    entries. -/
example : BenignHistory Toy.names noTree [.mkdir 0 Toy.longB 1 none true, .create 0 Toy.longA 7 none true,
      .unlink 0 Toy.longB none true, .link (.file 7) 1 Toy.longA (some 28) true, .rename 0 Toy.longA 1 Toy.longB none true,
      .create 0 Toy.longA 8 none true, .unlink 0 Toy.longA none true, .mkdir 0 [97] 2 none true, .rmdir 0 [97] none true] ∧
    ((Toy.names.run noTree [.mkdir 0 Toy.longB 1 none true, .create 0 Toy.longA 7 none true,
      .unlink 0 Toy.longB none true, .link (.file 7) 1 Toy.longA (some 28) true, .rename 0 Toy.longA 1 Toy.longB none true,
      .create 0 Toy.longA 8 none true, .unlink 0 Toy.longA none true, .mkdir 0 [97] 2 none true, .rmdir 0 [97] none true]).entries 1).any
        (fun p => endsWith p.1 Toy.names.suffix) = true :=
  ⟨benignHistory_of_check (by decide +kernel), by decide +kernel⟩

set_option maxRecDepth 100000 in
/-- C26 is violated by a failed `rmdir`: removing a directory that is not empty fails with `ENOTEMPTY`, but its table is gone, so its
    long-named entries are no longer listed. -/
theorem C26_rmdir_violated : ∃ ops op, TablesConsistent Toy.names (Toy.names.run noTree ops) ∧
    (Toy.names.step (Toy.names.run noTree ops) op).1 = some 39 ∧
    ¬ TablesConsistent Toy.names (Toy.names.step (Toy.names.run noTree ops) op).2 :=
  ⟨[.mkdir 0 [97] 1 none true, .create 1 Toy.longA 7 none true], .rmdir 0 [97] none true,
    C26_partial _ Toy.siv_wf Toy.names_foreign _ (benignHistory_of_check (by decide +kernel)), by decide +kernel,
    inconsistent_of_lost (d := 1) (by decide +kernel)⟩

set_option maxRecDepth 100000 in
/-- C26 is violated by renaming a long name onto another link of the same file: the system does nothing and reports success, but the row of
    the source is deleted. -/
theorem C26_rename_violated : ∃ ops op, TablesConsistent Toy.names (Toy.names.run noTree ops) ∧
    (Toy.names.step (Toy.names.run noTree ops) op).1 = none ∧
    ¬ TablesConsistent Toy.names (Toy.names.step (Toy.names.run noTree ops) op).2 :=
  ⟨[.create 0 Toy.longA 7 none true, .link (.file 7) 0 Toy.longB none true], .rename 0 Toy.longA 0 Toy.longB none true,
    C26_partial _ Toy.siv_wf Toy.names_foreign _ (benignHistory_of_check (by decide +kernel)), by decide +kernel,
    inconsistent_of_lost (d := 0) (by decide +kernel)⟩

set_option maxRecDepth 100000 in
/-- C26 is violated by a failing commit, which is only logged: the operation reports success. -/
theorem C26_commit_violated : ∃ op, (Toy.names.step noTree op).1 = none ∧ ¬ TablesConsistent Toy.names (Toy.names.step noTree op).2 :=
  ⟨.create 0 Toy.longA 7 none false, by decide +kernel, inconsistent_of_lost (d := 0) (by decide +kernel)⟩

/-! ## C50 -/

/-- C50: the flags passed to the system never ask for writing only and never for appending; they ask for writing exactly if the caller did,
    and all other flags, such as truncation and exclusive creation, are the caller's.  A created file is readable by its owner. -/
theorem C50_flags (flags mode : BitVec 32) : openFlags flags &&& 3 ≠ 1 ∧ (openFlags flags).getLsbD 10 = false ∧
    (flags &&& 3 ≠ 1 → openFlags flags &&& 3 = flags &&& 3) ∧ (flags &&& 3 = 1 → openFlags flags &&& 3 = 2) ∧
    (∀ i, 2 ≤ i → i ≠ 10 → (openFlags flags).getLsbD i = flags.getLsbD i) ∧
    (flags.getLsbD 6 = true → (openMode flags mode).getLsbD 8 = true) ∧
    (∀ i, i ≠ 8 ∨ flags.getLsbD 6 = false → (openMode flags mode).getLsbD i = mode.getLsbD i) := by
  have one : ∀ k, k < 32 → ∀ x : BitVec 32, x &&& BitVec.ofNat 32 (2 ^ k) ≠ 0 ↔ x.getLsbD k = true := by
    intro k hk x
    constructor
    · intro h
      by_contra hc
      apply h
      apply BitVec.eq_of_getLsbD_eq
      intro i hi
      rw [BitVec.getLsbD_and]
      by_cases e : i = k
      · subst e; simp [hc]
      · rw [BitVec.getLsbD_ofNat, Nat.testBit_two_pow_of_ne (fun h => e h.symm)]; simp
    · intro h h0
      have := congrArg (fun y => y.getLsbD k) h0
      simp only [BitVec.getLsbD_and, BitVec.getLsbD_ofNat, Nat.testBit_two_pow_self, h, hk, decide_true, Bool.and_true] at this
      simp at this
  have f1 : (if flags &&& oAppend ≠ 0 then flags &&& ~~~oAppend else flags) = flags &&& ~~~oAppend := by
    by_cases h : flags &&& oAppend ≠ 0
    · rw [if_pos h]
    · rw [if_neg h]
      have h10 : flags.getLsbD 10 = false := by
        rw [Bool.eq_false_iff]; exact fun e => h ((one 10 (by omega) flags).mpr e)
      apply BitVec.eq_of_getLsbD_eq
      intro i hi
      rw [BitVec.getLsbD_and]
      by_cases e : i = 10
      · subst e; rw [h10]; rfl
      · have : ∀ i, i < 32 → i ≠ 10 → (~~~oAppend).getLsbD i = true := by decide
        rw [this i hi e, Bool.and_true]
  have low : ∀ x : BitVec 32, ((x &&& ~~~oAccMode) ||| oRdWr) &&& 3 = 2 := by
    intro x
    apply BitVec.eq_of_getLsbD_eq
    intro i hi
    rw [BitVec.getLsbD_and, BitVec.getLsbD_or, BitVec.getLsbD_and]
    have : ∀ i, i < 32 → ∀ b : Bool, ((b && (~~~oAccMode).getLsbD i || oRdWr.getLsbD i) && (3 : BitVec 32).getLsbD i) = (2 : BitVec 32).getLsbD i := by
      decide
    exact this i hi _
  have high : ∀ (x : BitVec 32) i, 2 ≤ i → ((x &&& ~~~oAccMode) ||| oRdWr).getLsbD i = x.getLsbD i := by
    intro x i hi
    by_cases h32 : i < 32
    · rw [BitVec.getLsbD_or, BitVec.getLsbD_and]
      have : ∀ i, i < 32 → 2 ≤ i → ∀ b : Bool, (b && (~~~oAccMode).getLsbD i || oRdWr.getLsbD i) = b := by decide
      exact this i h32 hi _
    · rw [BitVec.getLsbD_of_ge _ _ (by omega), BitVec.getLsbD_of_ge _ _ (by omega)]
  have app : (flags &&& ~~~oAppend) &&& 3 = flags &&& 3 := by
    rw [BitVec.and_assoc]; rfl
  have app10 : (flags &&& ~~~oAppend).getLsbD 10 = false := by
    rw [BitVec.getLsbD_and]
    have : (~~~oAppend).getLsbD 10 = false := by decide
    rw [this, Bool.and_false]
  have appo : ∀ i, i ≠ 10 → (flags &&& ~~~oAppend).getLsbD i = flags.getLsbD i := by
    intro i hi
    by_cases h32 : i < 32
    · rw [BitVec.getLsbD_and]
      have : ∀ i, i < 32 → i ≠ 10 → (~~~oAppend).getLsbD i = true := by decide
      rw [this i h32 hi, Bool.and_true]
    · rw [BitVec.getLsbD_of_ge _ _ (by omega), BitVec.getLsbD_of_ge _ _ (by omega)]
  have ho : openFlags flags = if flags &&& 3 = 1 then ((flags &&& ~~~oAppend) &&& ~~~oAccMode) ||| oRdWr else flags &&& ~~~oAppend := by
    unfold openFlags
    dsimp only
    rw [f1]
    have : (flags &&& ~~~oAppend) &&& oAccMode = flags &&& 3 := app
    rw [this]
    rfl
  have hbits : ∀ i, 2 ≤ i → i ≠ 10 → (openFlags flags).getLsbD i = flags.getLsbD i := by
    intro i h2 h10
    rw [ho]
    by_cases h : flags &&& 3 = 1
    · rw [if_pos h, high _ i h2, appo i h10]
    · rw [if_neg h, appo i h10]
  have hcreat : (openFlags flags &&& oCreat ≠ 0) ↔ flags.getLsbD 6 = true := by
    rw [← hbits 6 (by omega) (by omega)]
    exact one 6 (by omega) _
  refine ⟨?_, ?_, ?_, ?_, hbits, ?_, ?_⟩
  · rw [ho]
    by_cases h : flags &&& 3 = 1
    · rw [if_pos h, low]; decide
    · rw [if_neg h, app]; exact h
  · rw [ho]
    by_cases h : flags &&& 3 = 1
    · rw [if_pos h, high _ 10 (by omega), app10]
    · rw [if_neg h, app10]
  · intro h
    rw [ho, if_neg h, app]
  · intro h
    rw [ho, if_pos h, low]
  · intro h
    unfold openMode
    rw [if_pos (hcreat.mpr h), BitVec.getLsbD_or]
    have : (256 : BitVec 32).getLsbD 8 = true := by decide
    rw [this, Bool.or_true]
  · intro i hi
    unfold openMode
    by_cases h : flags.getLsbD 6 = true
    · rw [if_pos (hcreat.mpr h), BitVec.getLsbD_or]
      have hi : i ≠ 8 := by
        rcases hi with hi | hi
        · exact hi
        · rw [h] at hi; cases hi
      by_cases h32 : i < 32
      · have : ∀ i, i < 32 → i ≠ 8 → (256 : BitVec 32).getLsbD i = false := by decide
        rw [this i h32 hi, Bool.or_false]
      · rw [BitVec.getLsbD_of_ge (256 : BitVec 32) _ (by omega), Bool.or_false]
    · rw [if_neg (fun e => h (hcreat.mp e))]

/-- Write only, append, create and truncate become read, write, create and truncate. -/
example : openFlags (1 ||| 1024 ||| 64 ||| 512) = 2 ||| 64 ||| 512 := by decide

/-- C50: opening with `O_TRUNC` gives an empty file, whatever the backing file held; without it, the file as it is. -/
theorem C50_truncate (C : LiteCfg) (hC : C.WF) (flags : BitVec 32) (st : LiteSt) :
    (flags.getLsbD 9 = false → C.openFlagged flags st = C.openFile st) ∧
    (flags.getLsbD 9 = true → ∃ p, C.openFlagged flags st = .ok p ∧ ∀ ops : List Spec.Op, (∀ op ∈ ops, op.extent ≤ liteMaxBlocks * C.bs) →
      ∃ p', C.stream.run p ops = .ok (p', (Spec.run [] ops).2)) := by
  have ht : (openFlags flags &&& oTrunc ≠ 0) ↔ flags.getLsbD 9 = true := by
    rw [← (C50_flags flags 0).2.2.2.2.1 9 (by omega) (by omega)]
    constructor
    · intro h
      by_contra hc
      apply h
      apply BitVec.eq_of_getLsbD_eq
      intro i hi
      rw [BitVec.getLsbD_and]
      by_cases e : i = 9
      · subst e; rw [Bool.eq_false_iff.mpr hc, Bool.false_and]; rfl
      · have : ∀ i, i < 32 → i ≠ 9 → oTrunc.getLsbD i = false := by decide
        rw [this i hi e, Bool.and_false]
        simp
    · intro h h0
      have := congrArg (fun y => y.getLsbD 9) h0
      simp only [BitVec.getLsbD_and, h, Bool.true_and] at this
      revert this; decide
  constructor
  · intro h
    unfold LiteCfg.openFlagged
    rw [if_neg (fun e => by rw [ht.mp e] at h; cases h)]
  · intro h
    obtain ⟨p, h1, hR⟩ := LiteCfg.openFile_empty hC { st with file := [] } rfl
    obtain ⟨p', h2, hR'⟩ := (LiteCfg.stream_refines hC).resize_ok 0 hR (Nat.zero_le _)
    refine ⟨p', ?_, ?_⟩
    · unfold LiteCfg.openFlagged
      rw [if_pos (ht.mpr h), h1]
      exact h2
    · intro ops ho
      obtain ⟨p'', h3, _⟩ := (LiteCfg.stream_refines hC).run_ok ops hR' ho
      exact ⟨p'', h3⟩

example : (Toy.lite true 5).WF ∧ (1 ||| 512 : BitVec 32).getLsbD 9 = true := ⟨Toy.lite_wf true 5, by decide⟩

/-! ## C59 -/

/-- What the calls on the handles of one file should answer: they all work on one byte array; opening with `O_TRUNC` empties it. -/
def sharedFile (c : Bytes) : List LiteCall → List Spec.Out
  | [] => []
  | .openAgain flags :: rest => .done :: sharedFile (if flags.getLsbD 9 then [] else c) rest
  | .call _ op :: rest => (Spec.step c op).2 :: sharedFile (Spec.step c op).1 rest

/-- The calls only use handles that are open (`k` are at the start), stay within the size limit, and do not open with `O_TRUNC`. -/
def Untruncated (lim : Nat) (k : Nat) : List LiteCall → Prop
  | [] => True
  | .openAgain flags :: rest => flags.getLsbD 9 = false ∧ Untruncated lim (k + 1) rest
  | .call i op :: rest => i < k ∧ op.extent ≤ lim ∧ Untruncated lim k rest

/-- C59: all handles of a file see one file, however the calls on them are interleaved.  Partial: only if no handle is opened with
    `O_TRUNC` while others are open; see below. -/
theorem C59_handles_partial (C : LiteCfg) (hC : C.WF) (n : Nat) (calls : List LiteCall)
    (h : Untruncated (liteMaxBlocks * C.bs) 1 calls) : ∃ p, C.openFile ⟨[], n⟩ = .ok p ∧
      C.handles [p.1] p.2 calls = .ok (sharedFile [] calls) := by
  obtain ⟨p, h1, hR⟩ := LiteCfg.openFile_empty hC ⟨[], n⟩ rfl
  refine ⟨p, h1, ?_⟩
  have key : ∀ (calls : List LiteCall) (k : Nat) (o : LiteObj) (st : LiteSt) (c : Bytes), LiteCfg.SRepr C (o, st) c →
      Untruncated (liteMaxBlocks * C.bs) k calls → C.handles (List.replicate k o) st calls = .ok (sharedFile c calls) := by
    intro calls
    induction calls with
    | nil => intros; rfl
    | cons call rest ih =>
      intro k o st c hR hu
      cases call with
      | openAgain flags =>
        obtain ⟨hf, hu⟩ := hu
        unfold LiteCfg.handles
        rw [(C50_truncate C hC flags st).1 hf, LiteCfg.openFile_existing hC hR.1 hR.2]
        dsimp only
        have e : List.replicate k o ++ [o] = List.replicate (k + 1) o := by
          rw [List.replicate_succ']
        rw [e, ih (k + 1) o st c hR hu]
        simp only [sharedFile, hf]
        rfl
      | call i op =>
        obtain ⟨hi, hx, hu⟩ := hu
        unfold LiteCfg.handles
        rw [List.getElem?_replicate, if_pos hi]
        dsimp only
        have hs : ∃ st', C.stream.step (o, st) op = .ok ((o, st'), (Spec.step c op).2) ∧ LiteCfg.SRepr C (o, st') (Spec.step c op).1 := by
          have H := LiteCfg.stream_refines hC
          cases op with
          | read off len =>
            refine ⟨st, ?_, hR⟩
            simp only [Stream.step, H.read_ok off len hR hx, bind, Except.bind]
            rfl
          | write off d =>
            obtain ⟨st', g1, g2⟩ := (LiteCfg.refines hC).write_refines hR.1 off d hx
            refine ⟨st', ?_, g2, hR.2⟩
            simp only [Stream.step, LiteCfg.stream, g1, bind, Except.bind]
            rfl
          | resize m =>
            obtain ⟨st', g1, g2⟩ := (LiteCfg.refines hC).resize_refines hR.1 m hx
            refine ⟨st', ?_, g2, hR.2⟩
            simp only [Stream.step, LiteCfg.stream, g1, bind, Except.bind]
            rfl
          | size =>
            refine ⟨st, ?_, hR⟩
            simp only [Stream.step, H.size_ok hR]
            rfl
          | reopen =>
            refine ⟨st, ?_, hR⟩
            simp only [Stream.step, LiteCfg.stream, LiteCfg.openFile_existing hC hR.1 hR.2, bind, Except.bind]
            rfl
        obtain ⟨st', g1, g2⟩ := hs
        rw [g1]
        dsimp only
        have e : (List.replicate k o).set i o = List.replicate k o := by
          apply List.ext_getElem
          · simp
          · intro j _ _
            simp
        rw [e, ih k o st' _ g2 hu]
        rfl
  exact key calls 1 p.1 p.2 [] hR h

/-- Two handles, one writing and one reading. -/
example : Untruncated (liteMaxBlocks * (Toy.lite true 5).bs) 1 [.openAgain 0, .call 0 (.write 3 [1, 2]), .call 1 (.read 0 9)] ∧
    sharedFile [] [.openAgain 0, .call 0 (.write 3 [1, 2]), .call 1 (.read 0 9)] = [.done, .done, .bytes [0, 0, 0, 1, 2]] :=
  ⟨⟨by decide, by decide, by decide, by decide, by decide, trivial⟩, by decide⟩

/-- As `Toy.lite`, but the key depends on the file id. -/
def Toy.keyed : LiteCfg where
  bs := 32
  ivSize := 12
  check := true
  sparse := false
  gcm id := ⟨fun iv aad pt => Toy.gcm.enc (id ++ iv) aad pt, fun iv aad ct mac => Toy.gcm.dec (id ++ iv) aad ct mac⟩
  padding _ := 0
  rng := Toy.rng
  ivFuel := 2

theorem Toy.keyed_wf : Toy.keyed.WF where
  bs_ge := by decide
  iv_ge := by decide
  iv_le := by decide
  gcm := fun id => ⟨fun _ _ _ => rfl, fun _ _ _ => by simp [Toy.keyed, Toy.gcm], fun _ _ _ _ => rfl, fun _ _ _ => by simp [Toy.keyed, Toy.gcm]⟩
  rng := Toy.rng_fair

set_option maxRecDepth 100000 in
/-- C59 is violated if a file is opened with `O_TRUNC` while another handle is open: truncation removes the file id, from which the key is derived, and
    a new one is drawn.  What is then written through the older handle is encrypted with the key of the old id, and cannot be read through the
    new handle, or ever after. -/
theorem C59_truncate_violated : ∃ p, Toy.keyed.openFile ⟨[], 0⟩ = .ok p ∧
    Toy.keyed.handles [p.1] p.2 [.openAgain (2 ||| 512), .call 0 (.write 0 [1, 2, 3]), .call 1 (.read 0 3)] = .error .verify ∧
    Toy.keyed.handles [p.1] p.2 [.openAgain (2 ||| 512), .call 0 (.write 0 [1, 2, 3]), .openAgain 0, .call 2 (.read 0 3)] = .error .verify ∧
    sharedFile [] [.openAgain (2 ||| 512), .call 0 (.write 0 [1, 2, 3]), .call 1 (.read 0 3)] = [.done, .done, .bytes [1, 2, 3]] :=
  ⟨(⟨List.replicate 16 1, []⟩, ⟨List.replicate 16 1, 1⟩), by decide +kernel, by decide +kernel, by decide +kernel, by decide +kernel⟩

/-! ## C56 -/

theorem takeWhile_all {p : UInt8 → Bool} {l : Bytes} (h : ∀ x ∈ l, p x = true) : l.takeWhile p = l := by
  induction l with
  | nil => rfl
  | cons x l ih =>
    rw [List.takeWhile_cons, if_pos (h x List.mem_cons_self), ih fun y hy => h y (List.mem_cons_of_mem _ hy)]

theorem readlink_fits {decrypt : Bytes → Res Bytes} {stored target : Bytes} {size : Nat} (h0 : (0 : UInt8) ∉ stored)
    (hd : decrypt stored = .ok target) (hl : stored.length ≤ 2 * size + 126) (hs : target.length < size) :
    vreadlink decrypt stored size = .ok (target ++ List.replicate (size - target.length) 0) := by
  unfold vreadlink
  by_cases h1 : size ≤ 1
  · rw [if_pos h1]
    obtain rfl : target = [] := List.eq_nil_of_length_eq_zero (by omega)
    rfl
  · rw [if_neg h1, List.take_of_length_le (by omega), takeWhile_all (fun x hx => by
      rw [bne_iff_ne]; intro e; exact h0 (e ▸ hx)), hd]
    dsimp only
    rw [List.take_of_length_le (by omega), Nat.min_eq_left (by omega)]
    rfl

/-- C56: reading a link made by the new translator, with a buffer that has room for the target and a terminator, gives the target,
    terminated. -/
theorem C56_readlink (T : NewStyle) (hS : T.siv.WF) (target stored : Bytes) (size : Nat) (he : T.encryptSymlink target = .ok stored)
    (hs : target.length < size) :
    vreadlink T.decryptSymlink stored size = .ok (target ++ List.replicate (size - target.length) 0) := by
  obtain ⟨s, parts, h1, h2, h3, h4, h5⟩ := C23_round_trip T hS target
  rw [he] at h1; cases h1
  have alph : ∀ x ∈ Spec.alphabet32, x ≠ 0 := by decide +kernel
  refine readlink_fits ?_ h2 ?_ hs
  · rw [h3]
    clear h3 h2 he h5
    induction parts with
    | nil => simp [eachAfterSlash]
    | cons p l ih =>
      have := ih fun q hq => h4 q (List.mem_cons_of_mem _ hq)
      simp only [eachAfterSlash, List.cons_append, List.mem_cons, List.mem_append, not_or]
      exact ⟨by decide, fun hm => alph _ ((h4 p List.mem_cons_self).2.2 _ hm) rfl, this⟩
  · by_cases ht : target = []
    · subst ht; cases he; simp
    · rw [h5 ht]; omega

example : ∃ stored, Toy.names.encryptSymlink [97, 47, 98] = .ok stored ∧
    vreadlink Toy.names.decryptSymlink stored 6 = .ok [97, 47, 98, 0, 0, 0] := by
  obtain ⟨s, _, h, _⟩ := C23_round_trip Toy.names Toy.siv_wf [97, 47, 98]
  exact ⟨s, h, C56_readlink _ Toy.siv_wf _ s 6 h (by decide)⟩

/-- C56 for the legacy translator.  Partial: only if the stored form is at most `2 * size + 126` bytes; see below. -/
theorem C56_legacy_readlink_partial (S : Siv) (hS : S.WF) (target stored : Bytes) (size : Nat) (he : legacyEncryptSymlink S target = .ok stored)
    (hs : target.length < size) (hl : stored.length ≤ 2 * size + 126) :
    vreadlink (legacyDecryptSymlink S) stored size = .ok (target ++ List.replicate (size - target.length) 0) := by
  obtain ⟨parts, hp⟩ := pieces_exist target
  obtain ⟨r1, r2⟩ := C23_legacy_round_trip S hS target parts hp
  have hlen : ∀ v ∈ parts, v.length ≤ 2000 := by
    intro v hv
    by_contra hc
    have := r2 ⟨v, hv, by omega⟩
    rw [he] at this; cases this
  obtain ⟨s, h1, h2⟩ := r1 hlen
  rw [he] at h1; cases h1
  refine readlink_fits ?_ h2 hl hs
  unfold legacyEncryptSymlink at he
  by_cases e1 : target.isEmpty = true
  · rw [if_pos e1] at he; cases he; simp
  · rw [if_neg e1] at he
    by_cases e2 : (target == [slash]) = true
    · rw [if_pos e2] at he; cases he; decide
    · rw [if_neg e2] at he
      obtain ⟨l, g1, g2⟩ := legacyLoop_out hS target parts hp hlen
      rw [he] at g1; cases g1
      have alph : ∀ x ∈ Spec.alphabet32, x ≠ 0 := by decide +kernel
      have g3 : ∀ p ∈ l, (0 : UInt8) ∉ p := by
        clear he hl h2 hp r1 r2 e1 e2 hlen
        induction g2 with
        | nil => simp
        | cons e _ ih =>
          intro p hp
          rcases List.mem_cons.mp hp with rfl | hp
          · exact fun hx => alph _ ((legacySlice_noslash hS _ _ e).2 _ hx) rfl
          · exact ih p hp
      clear he hl h2 hp r1 r2 e1 e2 hlen g2
      induction l with
      | nil => simp [join]
      | cons p l ih =>
        have ih := ih fun q hq => g3 q (List.mem_cons_of_mem _ hq)
        have hp := g3 p List.mem_cons_self
        cases l with
        | nil => simpa [join] using hp
        | cons q l => simp only [join, List.mem_append, List.mem_cons, not_or]; exact ⟨hp, by decide, ih⟩

set_option maxRecDepth 100000 in
/-- C56 is violated by the legacy translator for targets with many short pieces: the link below is made, and its stored form decrypts, but
    reading it with a buffer that has room for it fails, after a read outside the buffer. -/
theorem C56_legacy_violated : ∃ target stored, legacyEncryptSymlink Toy.siv target = .ok stored ∧
    legacyDecryptSymlink Toy.siv stored = .ok target ∧ target.length < 13 ∧
    vreadlink (legacyDecryptSymlink Toy.siv) stored 13 = .error .outOfBounds := by
  obtain ⟨r1, _⟩ := C23_legacy_round_trip Toy.siv Toy.siv_wf [97, 47, 97, 47, 97, 47, 97, 47, 97, 47, 97]
    [[97], [97], [97], [97], [97], [97]] ⟨by decide, by decide, rfl⟩
  obtain ⟨s, h1, h2⟩ := r1 (by decide)
  refine ⟨_, s, h1, h2, by decide, ?_⟩
  have : legacyEncryptSymlink Toy.siv [97, 47, 97, 47, 97, 47, 97, 47, 97, 47, 97] = .ok
      (let p : Bytes := [78, 71] ++ List.replicate 24 65 ++ [68, 83]
       p ++ 47 :: p ++ 47 :: p ++ 47 :: p ++ 47 :: p ++ 47 :: p) := by decide +kernel
  rw [h1] at this
  cases this
  decide +kernel

/-! ## C57 -/

theorem wrap16 (x : Nat) (h : 16 ≤ x) (h' : x < 2 ^ 32) : (x + 2 ^ 64 - 16) % 2 ^ 32 = x - 16 := by
  have e : x + 2 ^ 64 - 16 = (x - 16) + 2 ^ 32 * 2 ^ 32 := by omega
  rw [e, Nat.add_mul_mod_self_left, Nat.mod_eq_of_lt (by omega)]

/-- C57 for the legacy translator: the largest name length reported is the largest for which the backing name fits. -/
theorem C57_legacy (S : Siv) (hS : S.WF) (phys : Nat) (hp : phys ≤ 3225) (v : Bytes) (hv : v ≠ []) :
    (v.length ≤ legacyMaxComponent phys ↔ ∃ s, legacyEncryptSlice S v = .ok s ∧ s.length ≤ phys) := by
  have hpos := List.length_pos_iff.mpr hv
  have hm : legacyMaxComponent phys = phys * 5 / 8 - 16 := by
    unfold legacyMaxComponent kSivSize
    rw [Nat.mod_eq_of_lt (show phys * 5 < 2 ^ 32 by omega)]
    by_cases h : phys ≤ 16 * 8 / 5
    · rw [if_pos h]; omega
    · rw [if_neg h, wrap16 _ (by omega) (by omega)]
  rw [hm]
  rcases legacyEncryptSlice_cases hS v with ⟨e, _⟩ | ⟨_, hl, s, h1, h2⟩ | ⟨e, he⟩
  · exact absurd e hv
  · obtain ⟨s', c, w, g1, _, _, _, _, _, _, g8, _⟩ := encodeName_spec hS v
    rw [h1] at g1; cases g1
    constructor
    · intro h; exact ⟨s, h2, by omega⟩
    · rintro ⟨s', k1, k2⟩
      rw [h2] at k1; cases k1
      omega
  · constructor
    · intro h; omega
    · rintro ⟨s', k1, _⟩
      rw [he] at k1; cases k1

example : legacyMaxComponent 255 = 143 := by decide

/-- C57 for the new translator: every name of at most the length reported has a backing name that fits.  Partial: the backing file system must
    take names of at least 26 bytes, and if the report is 65535, of the size of the backing names of long names. -/
theorem C57_namemax_partial (T : NewStyle) (hS : T.siv.WF) (hh : ∀ m, (T.hash m).length = 32) (phys : Nat) (h26 : 26 ≤ phys) (hp : phys ≤ 65535)
    (hlong : (T.threshold + 16) * 8 / 5 < phys → 77 + T.suffix.length ≤ phys) (v : Bytes) (hv : v ≠ [])
    (hl : v.length ≤ T.maxComponent phys) : ∃ s, T.encodeComponent v = .ok s ∧ s.length ≤ phys := by
  unfold NewStyle.maxComponent kSivSize at hl
  rw [Nat.mod_eq_of_lt (show phys * 5 < 2 ^ 32 by omega)] at hl
  have small : v.length ≤ T.threshold → (8 * (v.length + 16) + 4) / 5 ≤ phys → ∃ s, T.encodeComponent v = .ok s ∧ s.length ≤ phys := by
    intro h1 h2
    obtain ⟨s, c, w, g1, _, _, _, _, _, _, g8, _⟩ := encodeName_spec hS v
    exact ⟨s, by rw [encodeComponent_inline v hv h1, g1], by omega⟩
  by_cases h : phys ≤ (T.threshold + 16) * 8 / 5
  · rw [if_pos h] at hl
    rw [wrap16 _ (by omega) (by omega)] at hl
    exact small (by omega) (by omega)
  · rw [if_neg h] at hl
    by_cases ht : v.length ≤ T.threshold
    · exact small ht (by omega)
    · obtain ⟨s, h1, h2⟩ := encodeComponent_long hS v (by omega)
      obtain ⟨s', c, w, g1, _, _, _, _, _, _, g8, _⟩ := encodeName_spec hS (T.hash v)
      rw [h1] at g1; cases g1
      refine ⟨_, h2, ?_⟩
      rw [List.length_append, g8, hh]
      have := hlong (by omega)
      omega

example : Toy.names.maxComponent 255 = 65535 ∧ Toy.names.maxComponent 30 = 2 := by decide

/-- C57 is violated: 65535 is reported although no long name fits, and for a backing file system with very short names, the subtraction
    wraps. -/
theorem C57_violated (K : NameKeys) (hS : K.siv.WF) (hh : ∀ m, (K.hash m).length = 32) :
    (∃ T : NewStyle, T.toNameKeys = K ∧ T.maxComponent 100 = 65535 ∧
      ∀ v, 10 < v.length → ∃ s, T.encodeComponent v = .ok s ∧ 100 < s.length) ∧
    (∃ T : NewStyle, T.toNameKeys = K ∧ T.maxComponent 20 = 2 ^ 32 - 4) := by
  constructor
  · refine ⟨⟨K, 10, List.replicate 30 46⟩, rfl, by simp [NewStyle.maxComponent, kSivSize], ?_⟩
    intro v hv
    obtain ⟨s, h1, h2⟩ := encodeComponent_long (T := ⟨K, 10, List.replicate 30 46⟩) hS v hv
    obtain ⟨s', c, w, g1, _, _, _, _, _, _, g8, _⟩ := encodeName_spec hS (K.hash v)
    dsimp only at h1
    rw [h1] at g1; cases g1
    refine ⟨_, h2, ?_⟩
    rw [List.length_append, g8, hh]
    simp
  · exact ⟨⟨K, 128, [46]⟩, rfl, by simp [NewStyle.maxComponent, kSivSize]⟩

example : Toy.names.siv.WF ∧ ∀ m, (Toy.names.hash m).length = 32 := ⟨Toy.siv_wf, fun m => by simp [Toy.names, zeros]⟩

/-! ## C58 -/

/-- The normal form of a path: canonical composition if wanted, then case folding if wanted. -/
def NormalForm (nfc fold : Bytes → Option Bytes) (useNfc useFold : Bool) (path form : Bytes) : Prop :=
  ∃ mid, (useNfc = true → nfc path = some mid) ∧ (useNfc = false → mid = path) ∧
    (useFold = true → fold mid = some form) ∧ (useFold = false → form = mid)

theorem normalised_eq {α : Type} {nfc fold : Bytes → Option Bytes} {useNfc useFold : Bool} {delegate : Bytes → Res α} {path form : Bytes} {r : α}
    (hu : (useNfc || useFold) = true) (hn : NormalForm nfc fold useNfc useFold path form) (hd : delegate form = .ok r) :
    normalisedEncrypt nfc fold useNfc useFold delegate path = .ok r := by
  obtain ⟨mid, h1, h2, h3, h4⟩ := hn
  unfold normalisedEncrypt
  have e1 : (if useNfc = true then nfc path else some path) = some mid := by
    cases useNfc with
    | true => exact h1 rfl
    | false => rw [h2 rfl]; rfl
  have e2 : (if useFold = true then fold mid else some mid) = some form := by
    cases useFold with
    | true => exact h3 rfl
    | false => rw [h4 rfl]; rfl
  rw [e1]
  dsimp only
  rw [e2]
  dsimp only
  rw [if_pos hu, hd]

/-- C58: with normalisation, two paths that have normal forms lead to the same backing path if the forms are equal, and only then, unless
    two long names have the same hash. -/
theorem C58_normalised (T : NewStyle) (hS : T.siv.WF) (hf : ForeignSuffix T) (hs : (47 : UInt8) ∉ T.suffix) (nfc fold : Bytes → Option Bytes)
    (useNfc useFold : Bool) (hu : (useNfc || useFold) = true) (path path' form form' : Bytes)
    (h : NormalForm nfc fold useNfc useFold path form) (h' : NormalForm nfc fold useNfc useFold path' form') :
    ∃ b b' c c', normalisedEncrypt nfc fold useNfc useFold T.encryptFullPath path = .ok (b, c) ∧
      normalisedEncrypt nfc fold useNfc useFold T.encryptFullPath path' = .ok (b', c') ∧
      T.encryptFullPath form = .ok (b, c) ∧
      (form = form' → b = b' ∧ c = c') ∧
      (b = b' → form = form' ∨ ∃ v v', v ≠ v' ∧ T.threshold < v.length ∧ T.threshold < v'.length ∧ T.hash v = T.hash v') := by
  have tot : ∀ p, ∃ b c, T.encryptFullPath p = .ok (b, c) := by
    intro p
    obtain ⟨parts, hp⟩ := pieces_exist p
    obtain ⟨_, c, h, _⟩ := C22_structure T hS p parts hp
    exact ⟨_, c, h⟩
  obtain ⟨b, c, hb⟩ := tot form
  obtain ⟨b', c', hb'⟩ := tot form'
  refine ⟨b, b', c, c', normalised_eq hu h hb, normalised_eq hu h' hb', hb, ?_, ?_⟩
  · intro e
    subst e
    rw [hb] at hb'
    cases hb'
    exact ⟨rfl, rfl⟩
  · intro e
    subst e
    exact C21_path_injective_partial T hS hf hs form form' b c c' hb hb'

/-- Lower-casing a letter as an example of folding. -/
example : ∃ b c, normalisedEncrypt some (fun p => some (p.map fun x => if x = 65 then 97 else x)) false true Toy.names.encryptFullPath [47, 65] = .ok (b, c) ∧
    Toy.names.encryptFullPath [47, 97] = .ok (b, c) := by
  obtain ⟨b, _, c, _, h1, _, h2, _⟩ := C58_normalised Toy.names Toy.siv_wf Toy.names_foreign (by decide) some
    (fun p => some (p.map fun x => if x = 65 then 97 else x)) false true rfl [47, 65] [47, 65] [47, 97] [47, 97]
    ⟨[47, 65], by simp, by simp, by decide, by simp⟩ ⟨[47, 65], by simp, by simp, by decide, by simp⟩
  exact ⟨b, c, h1, h2⟩

/-- C58: a path that cannot be normalised is used as it is. -/
theorem C58_not_normalisable {α : Type} (nfc fold : Bytes → Option Bytes) (useNfc useFold : Bool) (delegate : Bytes → Res α) (path : Bytes)
    (h : (useNfc = true ∧ nfc path = none) ∨ (useNfc = false ∧ useFold = true ∧ fold path = none) ∨
      (∃ mid, useNfc = true ∧ nfc path = some mid ∧ useFold = true ∧ fold mid = none)) :
    normalisedEncrypt nfc fold useNfc useFold delegate path = delegate path := by
  unfold normalisedEncrypt
  rcases h with ⟨h1, h2⟩ | ⟨h1, h2, h3⟩ | ⟨mid, h1, h2, h3, h4⟩
  · rw [if_pos h1, h2]
  · rw [h1, h2]
    simp only [Bool.false_eq_true, if_false, if_true, h3]
  · rw [if_pos h1, h2]
    dsimp only
    rw [if_pos h3, h4]

example : normalisedEncrypt (fun _ => none) some true false Toy.names.encryptFullPath [47, 255] = Toy.names.encryptFullPath [47, 255] :=
  C58_not_normalisable _ _ _ _ _ _ (Or.inl ⟨rfl, rfl⟩)

end Securefs.Props

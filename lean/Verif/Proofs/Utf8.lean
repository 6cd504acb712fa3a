import Verif.Model.Wire
import Verif.Spec.Utf8
/-!
# The check for UTF-8
-/

namespace Securefs

open Spec

theorem contByte_iff {lo hi b : UInt8} : contByte lo hi b = true ↔ lo.toNat ≤ b.toNat ∧ b.toNat ≤ hi.toNat := by
  unfold contByte
  rw [Bool.and_eq_true, decide_eq_true_eq, decide_eq_true_eq, UInt8.le_iff_toNat_le, UInt8.le_iff_toNat_le]

theorem contByte_of {lo hi b : UInt8} (h : lo.toNat ≤ b.toNat) (h' : b.toNat ≤ hi.toNat) : contByte lo hi b = true := contByte_iff.mpr ⟨h, h'⟩

theorem contByte_not {lo hi b : UInt8} (h : b.toNat < lo.toNat ∨ hi.toNat < b.toNat) : contByte lo hi b = false := by
  rw [Bool.eq_false_iff, ne_eq, contByte_iff]; omega

theorem ofNat_small {n : Nat} (h : n < 256) : (UInt8.ofNat n).toNat = n := by
  rw [UInt8.toNat_ofNat']; omega

theorem byte_eq {a : UInt8} {n : Nat} (h : a.toNat = n) : a = UInt8.ofNat n := by rw [← h, UInt8.ofNat_toNat]

theorem utf8Valid_long (a b c : UInt8) (rest : Bytes) : utf8Valid (a :: b :: c :: rest) =
    if a < 128 then utf8Valid (b :: c :: rest)
    else if contByte 0xC2 0xDF a then contByte 0x80 0xBF b && utf8Valid (c :: rest)
    else if a = 0xE0 then contByte 0xA0 0xBF b && contByte 0x80 0xBF c && utf8Valid rest
    else if a = 0xED then contByte 0x80 0x9F b && contByte 0x80 0xBF c && utf8Valid rest
    else if contByte 0xE1 0xEF a then contByte 0x80 0xBF b && contByte 0x80 0xBF c && utf8Valid rest
    else
      match rest with
      | [] => false
      | d :: rest =>
        (if a = 0xF0 then contByte 0x90 0xBF b
          else if a = 0xF4 then contByte 0x80 0x8F b
          else contByte 0xF1 0xF3 a && contByte 0x80 0xBF b) && contByte 0x80 0xBF c && contByte 0x80 0xBF d && utf8Valid rest := by
  rw [utf8Valid.eq_def]
  cases rest <;> rfl

theorem utf8_cons1 {a : UInt8} (h : a.toNat < 128) (rest : Bytes) : utf8Valid (a :: rest) = utf8Valid rest := by
  have h' : a < 128 := by rw [UInt8.lt_iff_toNat_lt]; exact h
  match rest with
  | [] => simp [utf8Valid, h']
  | [b] =>
    have : contByte 0xC2 0xDF a = false := contByte_not (.inl (by show _ < 0xC2; omega))
    simp [utf8Valid, h', this]
  | b :: c :: rest => rw [utf8Valid_long, if_pos h']

theorem utf8_cons2 {a b : UInt8} (ha : 0xC2 ≤ a.toNat ∧ a.toNat ≤ 0xDF) (hb : 0x80 ≤ b.toNat ∧ b.toNat ≤ 0xBF) (rest : Bytes) :
    utf8Valid (a :: b :: rest) = utf8Valid rest := by
  have h1 : ¬ a < 128 := by rw [UInt8.lt_iff_toNat_lt]; show ¬ _ < 128; omega
  have h2 : contByte 0xC2 0xDF a = true := contByte_of ha.1 ha.2
  have h3 : contByte 0x80 0xBF b = true := contByte_of (lo := 0x80) (hi := 0xBF) hb.1 hb.2
  match rest with
  | [] => simp [utf8Valid, h2, h3]
  | c :: rest => rw [utf8Valid_long, if_neg h1, if_pos h2, h3, Bool.true_and]

/-- The second byte of a character of three bytes. -/
def mid3 (a b : Nat) : Prop := if a = 0xE0 then 0xA0 ≤ b ∧ b ≤ 0xBF else if a = 0xED then 0x80 ≤ b ∧ b ≤ 0x9F else 0x80 ≤ b ∧ b ≤ 0xBF

theorem utf8_cons3 {a b c : UInt8} (ha : 0xE0 ≤ a.toNat ∧ a.toNat ≤ 0xEF) (hb : mid3 a.toNat b.toNat) (hc : 0x80 ≤ c.toNat ∧ c.toNat ≤ 0xBF)
    (rest : Bytes) : utf8Valid (a :: b :: c :: rest) = utf8Valid rest := by
  have h1 : ¬ a < 128 := by rw [UInt8.lt_iff_toNat_lt]; show ¬ _ < 128; omega
  have h2 : contByte 0xC2 0xDF a = false := contByte_not (.inr (by show 0xDF < _; omega))
  have h3 : contByte 0x80 0xBF c = true := contByte_of hc.1 hc.2
  unfold mid3 at hb
  rw [utf8Valid_long, if_neg h1, if_neg (by rw [h2]; decide)]
  by_cases e0 : a = 0xE0
  · rw [if_pos (by rw [e0]; rfl)] at hb
    rw [if_pos e0, contByte_of (lo := 0xA0) (hi := 0xBF) hb.1 hb.2, h3]; rfl
  · rw [if_neg (fun h => e0 (byte_eq h))] at hb
    rw [if_neg e0]
    by_cases e1 : a = 0xED
    · rw [if_pos (by rw [e1]; rfl)] at hb
      rw [if_pos e1, contByte_of (lo := 0x80) (hi := 0x9F) hb.1 hb.2, h3]; rfl
    · rw [if_neg (fun h => e1 (byte_eq h))] at hb
      have : a.toNat ≠ 0xE0 := fun h => e0 (byte_eq h)
      rw [if_neg e1, if_pos (contByte_of (by show 0xE1 ≤ _; omega) ha.2), contByte_of (lo := 0x80) (hi := 0xBF) hb.1 hb.2, h3]; rfl

/-- The second byte of a character of four bytes. -/
def mid4 (a b : Nat) : Prop := if a = 0xF0 then 0x90 ≤ b ∧ b ≤ 0xBF else if a = 0xF4 then 0x80 ≤ b ∧ b ≤ 0x8F else 0x80 ≤ b ∧ b ≤ 0xBF

theorem utf8_cons4 {a b c d : UInt8} (ha : 0xF0 ≤ a.toNat ∧ a.toNat ≤ 0xF4) (hb : mid4 a.toNat b.toNat) (hc : 0x80 ≤ c.toNat ∧ c.toNat ≤ 0xBF)
    (hd : 0x80 ≤ d.toNat ∧ d.toNat ≤ 0xBF) (rest : Bytes) : utf8Valid (a :: b :: c :: d :: rest) = utf8Valid rest := by
  have h1 : ¬ a < 128 := by rw [UInt8.lt_iff_toNat_lt]; show ¬ _ < 128; omega
  have h2 : contByte 0xC2 0xDF a = false := contByte_not (.inr (by show 0xDF < _; omega))
  have h3 : contByte 0x80 0xBF c = true := contByte_of hc.1 hc.2
  have h4 : contByte 0x80 0xBF d = true := contByte_of hd.1 hd.2
  have h5 : contByte 0xE1 0xEF a = false := contByte_not (.inr (by show 0xEF < _; omega))
  have n0 : a ≠ 0xE0 := by rintro rfl; exact absurd ha.1 (by decide)
  have n1 : a ≠ 0xED := by rintro rfl; exact absurd ha.1 (by decide)
  unfold mid4 at hb
  rw [utf8Valid_long, if_neg h1, if_neg (by rw [h2]; decide), if_neg n0, if_neg n1, if_neg (by rw [h5]; decide)]
  show ((if a = 0xF0 then contByte 0x90 0xBF b else if a = 0xF4 then contByte 0x80 0x8F b else contByte 0xF1 0xF3 a && contByte 0x80 0xBF b) &&
    contByte 0x80 0xBF c && contByte 0x80 0xBF d && utf8Valid rest) = _
  rw [h3, h4, Bool.and_true, Bool.and_true]
  by_cases e0 : a = 0xF0
  · rw [if_pos (by rw [e0]; rfl)] at hb
    rw [if_pos e0, contByte_of (lo := 0x90) (hi := 0xBF) hb.1 hb.2]; rfl
  · rw [if_neg (fun h => e0 (byte_eq h))] at hb
    rw [if_neg e0]
    by_cases e1 : a = 0xF4
    · rw [if_pos (by rw [e1]; rfl)] at hb
      rw [if_pos e1, contByte_of (lo := 0x80) (hi := 0x8F) hb.1 hb.2]; rfl
    · rw [if_neg (fun h => e1 (byte_eq h))] at hb
      have : a.toNat ≠ 0xF0 := fun h => e0 (byte_eq h)
      have : a.toNat ≠ 0xF4 := fun h => e1 (byte_eq h)
      rw [if_neg e1, contByte_of (by show 0xF1 ≤ _; omega) (by show _ ≤ 0xF3; omega), contByte_of (lo := 0x80) (hi := 0xBF) hb.1 hb.2]; rfl

theorem utf8Valid_encode {c : Nat} (h : IsChar c) (rest : Bytes) : utf8Valid (utf8Encode c ++ rest) = utf8Valid rest := by
  unfold IsChar at h
  unfold utf8Encode
  split
  · exact utf8_cons1 (by rw [ofNat_small (by omega)]; omega) _
  · split
    · refine utf8_cons2 ?_ ?_ _ <;> rw [ofNat_small (by omega)] <;> omega
    · split
      · refine utf8_cons3 ?_ ?_ ?_ _
        · rw [ofNat_small (by omega)]; omega
        · unfold mid3; rw [ofNat_small (by omega), ofNat_small (by omega)]; split
          · omega
          · split <;> omega
        · rw [ofNat_small (by omega)]; omega
      · refine utf8_cons4 ?_ ?_ ?_ ?_ _
        · rw [ofNat_small (by omega)]; omega
        · unfold mid4; rw [ofNat_small (by omega), ofNat_small (by omega)]; split
          · omega
          · split <;> omega
        · rw [ofNat_small (by omega)]; omega
        · rw [ofNat_small (by omega)]; omega

theorem isUtf8_cons {c : Nat} (h : IsChar c) {rest : Bytes} (hr : IsUtf8 rest) {b : Bytes} (hb : b = utf8Encode c ++ rest) : IsUtf8 b := by
  obtain ⟨cs, h1, h2⟩ := hr
  refine ⟨c :: cs, ?_, ?_⟩
  · intro x hx
    rcases List.mem_cons.mp hx with rfl | hx
    · exact h
    · exact h1 x hx
  · rw [hb, h2]; rfl

theorem isUtf8_1 {a : UInt8} (ha : a.toNat < 128) {rest : Bytes} (hr : IsUtf8 rest) : IsUtf8 (a :: rest) := by
  refine isUtf8_cons (c := a.toNat) (.inl (by omega)) hr ?_
  unfold utf8Encode
  rw [if_pos ha, UInt8.ofNat_toNat]; rfl

theorem isUtf8_2 {a b : UInt8} (ha : 0xC2 ≤ a.toNat ∧ a.toNat ≤ 0xDF) (hb : 0x80 ≤ b.toNat ∧ b.toNat ≤ 0xBF) {rest : Bytes} (hr : IsUtf8 rest) :
    IsUtf8 (a :: b :: rest) := by
  refine isUtf8_cons (c := (a.toNat - 0xC0) * 64 + (b.toNat - 0x80)) (.inl (by omega)) hr ?_
  unfold utf8Encode
  rw [if_neg (by omega), if_pos (by omega), ← byte_eq (a := a) (by omega), ← byte_eq (a := b) (by omega)]; rfl

theorem isUtf8_3 {a b c : UInt8} (ha : 0xE0 ≤ a.toNat ∧ a.toNat ≤ 0xEF) (hb : mid3 a.toNat b.toNat) (hc : 0x80 ≤ c.toNat ∧ c.toNat ≤ 0xBF)
    {rest : Bytes} (hr : IsUtf8 rest) : IsUtf8 (a :: b :: c :: rest) := by
  unfold mid3 at hb
  have hb' : 0x80 ≤ b.toNat ∧ b.toNat ≤ 0xBF ∧ (a.toNat = 0xE0 → 0xA0 ≤ b.toNat) ∧ (a.toNat = 0xED → b.toNat ≤ 0x9F) := by
    split at hb
    · omega
    · split at hb <;> omega
  refine isUtf8_cons (c := (a.toNat - 0xE0) * 4096 + (b.toNat - 0x80) * 64 + (c.toNat - 0x80)) (by unfold IsChar; omega) hr ?_
  unfold utf8Encode
  rw [if_neg (by omega), if_neg (by omega), if_pos (by omega), ← byte_eq (a := a) (by omega), ← byte_eq (a := b) (by omega), ← byte_eq (a := c) (by omega)]; rfl

theorem isUtf8_4 {a b c d : UInt8} (ha : 0xF0 ≤ a.toNat ∧ a.toNat ≤ 0xF4) (hb : mid4 a.toNat b.toNat) (hc : 0x80 ≤ c.toNat ∧ c.toNat ≤ 0xBF)
    (hd : 0x80 ≤ d.toNat ∧ d.toNat ≤ 0xBF) {rest : Bytes} (hr : IsUtf8 rest) : IsUtf8 (a :: b :: c :: d :: rest) := by
  unfold mid4 at hb
  have hb' : 0x80 ≤ b.toNat ∧ b.toNat ≤ 0xBF ∧ (a.toNat = 0xF0 → 0x90 ≤ b.toNat) ∧ (a.toNat = 0xF4 → b.toNat ≤ 0x8F) := by
    split at hb
    · omega
    · split at hb <;> omega
  refine isUtf8_cons (c := (a.toNat - 0xF0) * 262144 + (b.toNat - 0x80) * 4096 + (c.toNat - 0x80) * 64 + (d.toNat - 0x80)) (by unfold IsChar; omega) hr ?_
  unfold utf8Encode
  rw [if_neg (by omega), if_neg (by omega), if_neg (by omega), ← byte_eq (a := a) (by omega), ← byte_eq (a := b) (by omega), ← byte_eq (a := c) (by omega),
    ← byte_eq (a := d) (by omega)]; rfl

theorem isUtf8_nil : IsUtf8 [] := ⟨[], fun c hc => (by cases hc), rfl⟩

theorem isUtf8_of_valid (n : Nat) : ∀ b : Bytes, b.length ≤ n → utf8Valid b = true → IsUtf8 b := by
  induction n with
  | zero => intro b hb _; rw [List.length_eq_zero_iff.mp (by omega : b.length = 0)]; exact isUtf8_nil
  | succ n ih =>
    intro b hb h
    match b with
    | [] => exact isUtf8_nil
    | [a] =>
      rw [utf8Valid, decide_eq_true_eq, UInt8.lt_iff_toNat_lt] at h
      exact isUtf8_1 h isUtf8_nil
    | [a, b] =>
      rw [utf8Valid, Bool.or_eq_true, Bool.and_eq_true, Bool.and_eq_true, decide_eq_true_eq, decide_eq_true_eq, UInt8.lt_iff_toNat_lt,
        UInt8.lt_iff_toNat_lt, contByte_iff, contByte_iff] at h
      rcases h with h | h
      · exact isUtf8_1 h.1 (isUtf8_1 h.2 isUtf8_nil)
      · exact isUtf8_2 h.1 h.2 isUtf8_nil
    | a :: b :: c :: rest =>
      rw [utf8Valid_long] at h
      simp only [List.length_cons] at hb
      by_cases h1 : a < 128
      · rw [if_pos h1] at h
        exact isUtf8_1 (by rw [UInt8.lt_iff_toNat_lt] at h1; exact h1) (ih _ (by simp only [List.length_cons]; omega) h)
      · rw [if_neg h1] at h
        by_cases h2 : contByte 0xC2 0xDF a = true
        · rw [if_pos h2, Bool.and_eq_true, contByte_iff] at h
          exact isUtf8_2 (contByte_iff.mp h2) h.1 (ih _ (by simp only [List.length_cons]; omega) h.2)
        · rw [if_neg h2] at h
          by_cases h3 : a = 0xE0
          · rw [if_pos h3, Bool.and_eq_true, Bool.and_eq_true, contByte_iff, contByte_iff] at h
            subst h3
            exact isUtf8_3 (by decide) (by unfold mid3; rw [if_pos (by decide)]; exact h.1.1) h.1.2 (ih _ (by omega) h.2)
          · rw [if_neg h3] at h
            by_cases h4 : a = 0xED
            · rw [if_pos h4, Bool.and_eq_true, Bool.and_eq_true, contByte_iff, contByte_iff] at h
              subst h4
              exact isUtf8_3 (by decide) (by unfold mid3; rw [if_neg (by decide), if_pos (by decide)]; exact h.1.1) h.1.2 (ih _ (by omega) h.2)
            · rw [if_neg h4] at h
              have hE0 : a.toNat ≠ 0xE0 := fun h => h3 (byte_eq h)
              have hED : a.toNat ≠ 0xED := fun h => h4 (byte_eq h)
              by_cases h5 : contByte 0xE1 0xEF a = true
              · rw [if_pos h5, Bool.and_eq_true, Bool.and_eq_true, contByte_iff, contByte_iff] at h
                rw [contByte_iff] at h5
                refine isUtf8_3 ⟨Nat.le_trans (by decide) h5.1, h5.2⟩ ?_ h.1.2 (ih _ (by omega) h.2)
                unfold mid3; rw [if_neg hE0, if_neg hED]; exact h.1.1
              · rw [if_neg h5] at h
                match rest with
                | [] => cases h
                | d :: rest =>
                  simp only [List.length_cons] at hb
                  dsimp only at h
                  rw [Bool.and_eq_true, Bool.and_eq_true, Bool.and_eq_true, contByte_iff (b := c), contByte_iff (b := d)] at h
                  obtain ⟨⟨⟨g1, g2⟩, g3⟩, g4⟩ := h
                  have ih' := ih rest (by omega) g4
                  by_cases h6 : a = 0xF0
                  · rw [if_pos h6, contByte_iff] at g1
                    subst h6
                    exact isUtf8_4 (by decide) (by unfold mid4; rw [if_pos (by decide)]; exact g1) g2 g3 ih'
                  · rw [if_neg h6] at g1
                    by_cases h7 : a = 0xF4
                    · rw [if_pos h7, contByte_iff] at g1
                      subst h7
                      exact isUtf8_4 (by decide) (by unfold mid4; rw [if_neg (by decide), if_pos (by decide)]; exact g1) g2 g3 ih'
                    · rw [if_neg h7, Bool.and_eq_true, contByte_iff, contByte_iff] at g1
                      refine isUtf8_4 ⟨Nat.le_trans (by decide) g1.1.1, Nat.le_trans g1.1.2 (by decide)⟩ ?_ g2 g3 ih'
                      unfold mid4; rw [if_neg fun h => h6 (byte_eq h), if_neg fun h => h7 (byte_eq h)]; exact g1.2

theorem utf8Valid_iff (b : Bytes) : utf8Valid b = true ↔ IsUtf8 b := by
  refine ⟨isUtf8_of_valid _ b (Nat.le_refl _), ?_⟩
  rintro ⟨cs, h, rfl⟩
  induction cs with
  | nil => rfl
  | cons c cs ih =>
    rw [List.flatMap_cons, utf8Valid_encode (h c List.mem_cons_self)]
    exact ih fun x hx => h x (List.mem_cons_of_mem _ hx)

end Securefs

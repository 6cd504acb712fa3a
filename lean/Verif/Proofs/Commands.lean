import Verif.Spec.Commands
/-!
# Proofs for the commands
-/

namespace Securefs

open Spec

/-! ## Lines -/

theorem firstLine_nil : firstLine [] = [] := rfl

theorem firstLine_end {c : UInt8} {rest : Bytes} (h : c = 13 ∨ c = 10) : firstLine (c :: rest) = [] := by
  rcases h with h | h <;> subst h <;> rfl

theorem firstLine_cons {c : UInt8} {rest : Bytes} (h : ¬(c = 13 ∨ c = 10)) : firstLine (c :: rest) = c :: firstLine rest := by
  unfold firstLine
  rw [List.takeWhile_cons, if_pos]
  rw [Bool.not_eq_true', Bool.or_eq_false_iff]
  exact ⟨beq_false_of_ne fun h1 => h (.inl h1), beq_false_of_ne fun h1 => h (.inr h1)⟩

theorem afterLine_end {c : UInt8} {rest : Bytes} (h : c = 13 ∨ c = 10) : afterLine (c :: rest) = rest := by
  unfold afterLine
  rw [firstLine_end h]
  rfl

theorem afterLine_cons {c : UInt8} {rest : Bytes} (h : ¬(c = 13 ∨ c = 10)) : afterLine (c :: rest) = afterLine rest := by
  unfold afterLine
  rw [firstLine_cons h]
  rfl

theorem readPasswordLoop_eq (input : Bytes) : ∀ buffer : Bytes, buffer.length ≤ 4000 →
    readPasswordLoop buffer input =
      if buffer.length + (firstLine input).length ≤ 4000 then .ok (buffer ++ firstLine input, afterLine input) else .error .runtime := by
  induction input with
  | nil =>
    intro buffer hb
    rw [firstLine_nil, if_pos (by simpa using hb), List.append_nil]
    rfl
  | cons c rest ih =>
    intro buffer hb
    unfold readPasswordLoop
    by_cases hc : c = 13 ∨ c = 10
    · rw [if_pos hc, firstLine_end hc, afterLine_end hc, if_pos (by simpa using hb), List.append_nil]
    · rw [if_neg hc, firstLine_cons hc, afterLine_cons hc]
      by_cases hl : buffer.length < 4000
      · rw [if_pos hl, ih (buffer ++ [c]) (by rw [List.length_append]; exact hl)]
        rw [List.length_append, List.length_cons, List.append_assoc]
        simp only [List.length_cons, List.length_nil]
        by_cases h : buffer.length + (0 + 1) + (firstLine rest).length ≤ 4000
        · rw [if_pos h, if_pos (by omega)]; rfl
        · rw [if_neg h, if_neg (by omega)]
      · rw [if_neg hl, if_neg (by rw [List.length_cons]; omega)]

theorem readPassword_eq (input : Bytes) :
    readPassword input = if (firstLine input).length ≤ 4000 then .ok (firstLine input, afterLine input) else .error .runtime := by
  unfold readPassword
  rw [readPasswordLoop_eq input [] (by decide)]
  simp only [List.length_nil, Nat.zero_add, List.nil_append]

theorem firstLine_append {line : Bytes} (h : OneLine line) {c : UInt8} (hc : c = 13 ∨ c = 10) (rest : Bytes) :
    firstLine (line ++ c :: rest) = line ∧ afterLine (line ++ c :: rest) = rest := by
  induction line with
  | nil => exact ⟨firstLine_end hc, afterLine_end hc⟩
  | cons b line ih =>
    obtain ⟨h1, h2⟩ := h
    have hb : ¬(b = 13 ∨ b = 10) := by
      rintro (hb | hb)
      · exact h1 (hb ▸ List.mem_cons_self)
      · exact h2 (hb ▸ List.mem_cons_self)
    obtain ⟨i1, i2⟩ := ih ⟨fun hm => h1 (List.mem_cons_of_mem _ hm), fun hm => h2 (List.mem_cons_of_mem _ hm)⟩
    exact ⟨by rw [List.cons_append, firstLine_cons hb, i1], by rw [List.cons_append, afterLine_cons hb, i2]⟩

/-! ## Words -/

theorem lowerAscii_toNat (b : UInt8) : (lowerAscii b).toNat = if 65 ≤ b.toNat ∧ b.toNat ≤ 90 then b.toNat + 32 else b.toNat := by
  unfold lowerAscii
  have h : (65 ≤ b ∧ b ≤ 90) ↔ (65 ≤ b.toNat ∧ b.toNat ≤ 90) := by
    rw [UInt8.le_iff_toNat_le, UInt8.le_iff_toNat_le]; rfl
  by_cases hb : 65 ≤ b.toNat ∧ b.toNat ≤ 90
  · rw [if_pos (h.mpr hb), if_pos hb, UInt8.toNat_add]
    show (b.toNat + 32) % 256 = _
    omega
  · rw [if_neg (fun hx => hb (h.mp hx)), if_neg hb]

theorem lowerAscii_eq (x y : UInt8) : lowerAscii x = lowerAscii y ↔ SameLetter x y := by
  rw [← UInt8.toNat_inj, lowerAscii_toNat, lowerAscii_toNat]
  unfold SameLetter
  rw [← UInt8.toNat_inj]
  split <;> split <;> omega

theorem equalsIgnoreCase_eq (a b : Bytes) : equalsIgnoreCase a b = true ↔ SameWord a b := by
  unfold equalsIgnoreCase SameWord
  rw [beq_iff_eq]
  induction a generalizing b with
  | nil =>
    cases b with
    | nil => exact ⟨fun _ => .nil, fun _ => rfl⟩
    | cons y b => exact ⟨fun h => (by cases h), fun h => (by cases h)⟩
  | cons x a ih =>
    cases b with
    | nil => exact ⟨fun h => (by cases h), fun h => (by cases h)⟩
    | cons y b =>
      rw [List.map_cons, List.map_cons, List.cons.injEq, lowerAscii_eq, ih, List.forall₂_cons]

/-! ## `create` -/

theorem createParams_asked {R : CreateRandom} {a : CreateArgs} {d : DecParams} (h : createParams R a = .ok d) : AskedVolume a R d := by
  unfold createParams at h
  dsimp only at h
  split at h
  · rename_i hf
    rw [equalsIgnoreCase_eq] at hf
    injection h with h
    refine .inl ⟨hf, _, h.symm, rfl, rfl, rfl, rfl, rfl, ?_⟩
    intro t
    dsimp only
    split
    · rename_i hp
      constructor
      · intro ht
        injection ht with ht
        exact ⟨ht.symm, by omega⟩
      · rintro ⟨h1, _⟩; rw [h1]
    · rename_i hp
      exact ⟨fun ht => (by cases ht), fun ⟨h1, h2⟩ => absurd h1 (by omega)⟩
  · split at h
    · rename_i hf
      rw [equalsIgnoreCase_eq] at hf
      split at h
      · cases h
      · rename_i h1
        split at h
        · cases h
        · rename_i h2
          injection h with h
          refine .inr ⟨hf, _, h.symm, rfl, ?_, ?_, rfl, rfl⟩
          · by_cases hx : a.caseHandling = insensitiveWord
            · exact .inl ⟨decide_eq_true hx, hx⟩
            · exact .inr ⟨decide_eq_false hx, Classical.byContradiction fun hy => h1 ⟨hx, hy⟩⟩
          · by_cases hx : a.uninorm = insensitiveWord
            · exact .inl ⟨decide_eq_true hx, hx⟩
            · exact .inr ⟨decide_eq_false hx, Classical.byContradiction fun hy => h2 ⟨hx, hy⟩⟩
    · cases h

theorem createParams_of_asked {R : CreateRandom} {a : CreateArgs} {d : DecParams} (h : AskedVolume a R d) : createParams R a = .ok d := by
  unfold createParams
  dsimp only
  rcases h with ⟨hf, l, hd, h1, h2, h3, h4, h5, h6⟩ | ⟨hf, f, hd, h1, h2, h3, h4, h5⟩
  · rw [if_pos (by rw [equalsIgnoreCase_eq]; exact hf), hd]
    obtain ⟨n, c, x, p, t, s⟩ := l
    dsimp only at h1 h2 h3 h4 h5 h6
    subst h1 h2 h3 h4 h5
    have ht : (if 0 < a.longNameThreshold then some a.longNameThreshold else none) = t := by
      cases t with
      | none =>
        refine if_neg fun hp => ?_
        cases (h6 a.longNameThreshold).mpr ⟨rfl, by omega⟩
      | some t =>
        obtain ⟨ht, hz⟩ := (h6 t).mp rfl
        rw [← ht, if_pos (by omega)]
    rw [ht]
  · have hnot : ¬(equalsIgnoreCase a.format [108, 105, 116, 101] = true ∨ a.format = [52]) := by
      rintro (hx | hx)
      · rcases hf with hf | hf
        · have h1 := (equalsIgnoreCase_eq _ _).mpr hf
          unfold equalsIgnoreCase at hx h1
          rw [beq_iff_eq] at hx h1
          exact absurd (hx.symm.trans h1) (by decide)
        · rw [hf] at hx; exact absurd hx (by decide)
      · rcases hf with hf | hf
        · rw [hx] at hf
          exact absurd ((equalsIgnoreCase_eq _ _).mpr hf) (by decide)
        · rw [hf] at hx; exact absurd hx (by decide)
    rw [if_neg hnot, if_pos (by rw [equalsIgnoreCase_eq]; exact hf), hd]
    obtain ⟨k, st, lg, ci, un⟩ := f
    dsimp only at h1 h2 h3 h4 h5
    subst h1 h4 h5
    have e1 : word "insensitive" = insensitiveWord := by decide
    have e2 : word "sensitive" = sensitiveWord := by decide
    have e3 : sensitiveWord ≠ insensitiveWord := by decide
    rw [e1, e2] at h2 h3
    rcases h2 with ⟨rfl, h2⟩ | ⟨rfl, h2⟩ <;> rcases h3 with ⟨rfl, h3⟩ | ⟨rfl, h3⟩ <;> rw [h2, h3] <;> simp [e3, e3.symm]

end Securefs

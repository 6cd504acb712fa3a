import Verif.Model.FileTable
import Verif.Props.Encoding
import Mathlib.Data.List.Induction
/-! Helper lemmas about backing paths. -/

namespace Securefs

/-- The digits `hexify` writes. -/
def hexDigits (b : Bytes) : Bytes := b.flatMap fun x => [Spec.hexDigit (x.toNat / 16), Spec.hexDigit (x.toNat % 16)]

theorem hexify_eq (b : Bytes) : hexify b = .ok (hexDigits b) := Props.C14_hexify_exact b

theorem hexDigits_length (b : Bytes) : (hexDigits b).length = 2 * b.length :=
  (Props.C14_hexify_shape b _ (hexify_eq b)).1

theorem hexDigits_digit (b : Bytes) : ∀ c ∈ hexDigits b, Spec.IsHexDigit c :=
  (Props.C14_hexify_shape b _ (hexify_eq b)).2

theorem hexDigits_append (a b : Bytes) : hexDigits (a ++ b) = hexDigits a ++ hexDigits b := by
  simp [hexDigits]

theorem hexDigits_inj {a b : Bytes} (h : hexDigits a = hexDigits b) : a = b := by
  obtain ⟨s, h1, _, _, h2⟩ := hexify_ok a
  obtain ⟨s', h3, _, _, h4⟩ := hexify_ok b
  rw [hexify_eq] at h1 h3
  cases h1; cases h3
  rw [h, h4] at h2
  cases h2
  rfl

theorem digit_ne_slash {c : UInt8} (h : Spec.IsHexDigit c) : c ≠ 47 := by
  rintro rfl
  revert h
  unfold Spec.IsHexDigit
  decide

theorem digit_ne_dot {c : UInt8} (h : Spec.IsHexDigit c) : c ≠ 46 := by
  rintro rfl
  revert h
  unfold Spec.IsHexDigit
  decide

theorem scan_digits (d : Bytes) : ∀ (rest : Bytes) (n : Nat) (acc : Bytes), (∀ c ∈ d, Spec.IsHexDigit c) →
    scanDigits (d.reverse ++ rest) (d.length + n) acc = scanDigits rest n (d ++ acc) := by
  induction d using List.reverseRecOn with
  | nil => intro rest n acc _; simp
  | append_singleton d c ih =>
    intro rest n acc h
    have hc := h c (by simp)
    rw [List.reverse_append, List.length_append]
    simp only [List.reverse_cons, List.reverse_nil, List.nil_append, List.cons_append, List.length_singleton]
    rw [show d.length + 1 + n = (d.length + n) + 1 by omega]
    have hcond : (48 ≤ c ∧ c ≤ 57) ∨ (97 ≤ c ∧ c ≤ 102) := by
      simp only [UInt8.le_iff_toNat_le]
      exact hc
    rw [show scanDigits (c :: (d.reverse ++ rest)) (d.length + n + 1) acc = scanDigits (d.reverse ++ rest) (d.length + n) (c :: acc) from by
      simp only [scanDigits, if_pos hcond]]
    rw [ih rest n (c :: acc) (fun x hx => h x (by simp [hx]))]
    simp

theorem scan_slash (rest : Bytes) (n : Nat) (acc : Bytes) :
    scanDigits (47 :: rest) (n + 1) acc = scanDigits rest (n + 1) acc := by
  have h1 : ¬ ((48 ≤ (47 : UInt8) ∧ (47 : UInt8) ≤ 57) ∨ (97 ≤ (47 : UInt8) ∧ (47 : UInt8) ≤ 102)) := by decide
  have h2 : ¬ ((47 : UInt8) ≠ 47 ∧ (47 : UInt8) ≠ 92) := by decide
  simp only [scanDigits, if_neg h1, if_neg h2]

theorem scan_done (rest acc : Bytes) : scanDigits rest 0 acc = .ok (0, acc) := by
  cases rest <;> rfl

/-- The last slash of a path is where it is. -/
theorem last_slash_unique {p p' n n' : Bytes} (h : p ++ 47 :: n = p' ++ 47 :: n') (hn : (47 : UInt8) ∉ n) (hn' : (47 : UInt8) ∉ n') :
    p = p' ∧ n = n' := by
  have hlen : p.length = p'.length := by
    rcases Nat.lt_trichotomy p.length p'.length with hlt | heq | hgt
    · exfalso
      have h1 : (p ++ 47 :: n)[p'.length]? = some 47 := by rw [h]; simp
      rw [List.getElem?_append_right (by omega)] at h1
      cases hk : p'.length - p.length with
      | zero => omega
      | succ k =>
        rw [hk] at h1
        simp only [List.getElem?_cons_succ] at h1
        exact hn (List.mem_of_getElem? h1)
    · exact heq
    · exfalso
      have h1 : (p' ++ 47 :: n')[p.length]? = some 47 := by rw [← h]; simp
      rw [List.getElem?_append_right (by omega)] at h1
      cases hk : p.length - p'.length with
      | zero => omega
      | succ k =>
        rw [hk] at h1
        simp only [List.getElem?_cons_succ] at h1
        exact hn' (List.mem_of_getElem? h1)
  obtain ⟨h1, h2⟩ := List.append_inj h hlen
  exact ⟨h1, by simpa using h2⟩

theorem pathsV1_eq (id : Bytes) : pathsV1 id =
    .ok (hexDigits (id.take 1) ++ 47 :: hexDigits ((id.drop 1).take 5) ++ 47 :: hexDigits (id.drop 6),
      hexDigits (id.take 1) ++ 47 :: hexDigits ((id.drop 1).take 5) ++ 47 :: hexDigits (id.drop 6) ++ metaSuffix) := by
  simp only [pathsV1, hexify_eq, bind, Except.bind]
  rfl

theorem pathsV2_eq (id : Bytes) : pathsV2 id =
    .ok (hexDigits (id.take 1) ++ 47 :: hexDigits (id.drop 1), hexDigits (id.take 1) ++ 47 :: hexDigits (id.drop 1) ++ metaSuffix) := by
  simp only [pathsV2, hexify_eq, bind, Except.bind]
  rfl

theorem ends_meta (d : Bytes) : endsWithMeta (d ++ metaSuffix) = true := by
  unfold endsWithMeta
  have : (d ++ metaSuffix).drop ((d ++ metaSuffix).length - metaSuffix.length) = metaSuffix := by
    rw [List.length_append, Nat.add_sub_cancel, List.drop_left]
  rw [this]
  have h2 : metaSuffix.length ≤ (d ++ metaSuffix).length := by rw [List.length_append]; omega
  simp only [h2, decide_true, Bool.true_and]
  decide

theorem not_ends_meta {d : Bytes} (h : ∀ c ∈ d, Spec.IsHexDigit c) : endsWithMeta d = false := by
  unfold endsWithMeta
  by_cases hl : metaSuffix.length ≤ d.length
  · simp only [hl, decide_true, Bool.true_and, beq_eq_false_iff_ne, ne_eq]
    intro he
    have h1 : (46 : UInt8) ∈ (d.drop (d.length - metaSuffix.length)).map asciiLower := by rw [he]; decide
    obtain ⟨c, hc, hcl⟩ := List.mem_map.mp h1
    have hdig := h c (List.mem_of_mem_drop hc)
    unfold asciiLower at hcl
    by_cases hu : 65 ≤ c ∧ c ≤ 90
    · have hu' : 65 ≤ c.toNat ∧ c.toNat ≤ 90 := ⟨UInt8.le_iff_toNat_le.mp hu.1, UInt8.le_iff_toNat_le.mp hu.2⟩
      unfold Spec.IsHexDigit at hdig
      omega
    · rw [if_neg hu] at hcl
      exact digit_ne_dot hdig hcl
  · simp [hl]

/-- The scan on any full path of sixty-four digits with slashes in between. -/
theorem scanId_of {dir name digits : Bytes} {id : Bytes} (hname : endsWithMeta (name ++ metaSuffix) = true) (hid : id.length = 32)
    (hd : scanDigits (dir ++ 47 :: name).reverse 64 [] = .ok (0, digits)) (hx : digits = hexDigits id) :
    scanId dir (name ++ metaSuffix) = .ok (some id) := by
  unfold scanId
  rw [hname]
  simp only [Bool.not_true, Bool.false_eq_true, if_false]
  rw [show (name ++ metaSuffix).take ((name ++ metaSuffix).length - metaSuffix.length) = name by
    rw [List.length_append, Nat.add_sub_cancel, List.take_left]]
  have : (dir ++ pathSlash :: name).reverse = (dir ++ 47 :: name).reverse := rfl
  simp only [this, hd, bind, Except.bind]
  have hp : parseHexInto (zeros 0 ++ digits) 32 = .ok id := by
    subst hx
    obtain ⟨s, h1, h2, _, h3⟩ := hexify_ok id
    rw [hexify_eq] at h1
    cases h1
    show parseHexInto (hexDigits id) 32 = .ok id
    unfold parseHexInto
    rw [if_neg (by omega), if_neg (by omega)]
    exact h3
  rw [hp]

end Securefs

import Verif.Model.Encoding
import Verif.Proofs.Lists
import Mathlib.Data.Nat.Bitwise
import Mathlib.Tactic.IntervalCases
/-! Helper lemmas about the text encodings. -/

namespace Securefs

/-! ## Hexadecimal -/

theorem hex_digits : ∀ n : Fin 16, ∃ c, hexTable[n.val]? = some c ∧
    hexCases.lookup c = some (UInt8.ofNat n.val) := by decide

theorem hexCases_table : ∀ c : UInt8, ∀ v, hexCases.lookup c = some v →
    hexTable[v.toNat]? = some c ∧ v.toNat < 16 := by
  intro c v h
  have hall : ∀ p ∈ hexCases, hexTable[p.2.toNat]? = some p.1 ∧ p.2.toNat < 16 := by decide
  have : (c, v) ∈ hexCases := by
    have := List.lookup_eq_some_iff.mp h
    obtain ⟨l1, l2, h1, _⟩ := this
    rw [h1]; simp
  exact hall _ this

theorem byte_split (b : UInt8) : UInt8.ofNat (b.toNat / 16) * 16 + UInt8.ofNat (b.toNat % 16) = b := by
  apply UInt8.toNat_inj.mp
  have := b.toNat_lt
  simp only [UInt8.toNat_add, UInt8.toNat_mul, UInt8.toNat_ofNat']
  have h16 : (16 : UInt8).toNat = 16 := rfl
  rw [h16]
  omega

theorem hexify_ok : ∀ b : Bytes, ∃ s, hexify b = .ok s ∧ s.length = 2 * b.length ∧
    (∀ c ∈ s, c ∈ hexTable) ∧ parseHexLoop s = .ok b := by
  intro b
  induction b with
  | nil => exact ⟨[], rfl, rfl, by simp, rfl⟩
  | cons x xs ih =>
    obtain ⟨s, h1, h2, h3, h4⟩ := ih
    have hx := x.toNat_lt
    obtain ⟨h, e1, e2⟩ := hex_digits ⟨x.toNat / 16, by omega⟩
    obtain ⟨l, e3, e4⟩ := hex_digits ⟨x.toNat % 16, by omega⟩
    dsimp only at e1 e2 e3 e4
    refine ⟨h :: l :: s, ?_, by simp [h2]; omega, ?_, ?_⟩
    · simp only [hexify, e1, e3, h1, bind, Except.bind]
    · intro c hc
      simp only [List.mem_cons] at hc
      rcases hc with rfl | rfl | hc
      · exact List.mem_of_getElem? e1
      · exact List.mem_of_getElem? e3
      · exact h3 c hc
    · simp only [parseHexLoop, e2, e4, h4, bind, Except.bind, byte_split]

theorem parseHexLoop_inv : ∀ (n : Nat) (s b : Bytes), s.length ≤ n → parseHexLoop s = .ok b → hexify b = .ok s := by
  intro n
  induction n with
  | zero =>
    intro s b hn h
    have : s = [] := List.eq_nil_of_length_eq_zero (by omega)
    subst this
    cases h
    rfl
  | succ n ih =>
    intro s b hn h
    match s with
    | [] => cases h; rfl
    | [c] => cases h
    | x :: y :: rest =>
      simp only [parseHexLoop] at h
      split at h
      · cases h
      rename_i a ha
      split at h
      · cases h
      rename_i c hc
      simp only [bind, Except.bind] at h
      split at h
      · cases h
      rename_i r hr
      cases h
      have h1 := ih rest r (by simp at hn; omega) hr
      obtain ⟨e1, l1⟩ := hexCases_table _ _ ha
      obtain ⟨e2, l2⟩ := hexCases_table _ _ hc
      have ht : (a * 16 + c).toNat = a.toNat * 16 + c.toNat := by
        simp only [UInt8.toNat_add, UInt8.toNat_mul]
        have h16 : (16 : UInt8).toNat = 16 := rfl
        rw [h16]; omega
      simp only [hexify, ht]
      rw [show (a.toNat * 16 + c.toNat) / 16 = a.toNat by omega,
        show (a.toNat * 16 + c.toNat) % 16 = c.toNat by omega, e1, e2]
      simp only [h1, bind, Except.bind]

theorem parseHexLoop_total : ∀ (n : Nat) (s : Bytes), s.length ≤ n → s.length % 2 = 0 → (∀ c ∈ s, c ∈ hexTable) →
    ∃ b, parseHexLoop s = .ok b := by
  have key0 : ∀ c ∈ hexTable, (hexCases.lookup c).isSome = true := by decide
  have key : ∀ c ∈ hexTable, ∃ v, hexCases.lookup c = some v :=
    fun c hc => Option.isSome_iff_exists.mp (key0 c hc)
  intro n
  induction n with
  | zero =>
    intro s hn _ _
    have : s = [] := List.eq_nil_of_length_eq_zero (by omega)
    subst this
    exact ⟨[], rfl⟩
  | succ n ih =>
    intro s hn h2 hs
    match s with
    | [] => exact ⟨[], rfl⟩
    | [c] => simp at h2
    | x :: y :: rest =>
      obtain ⟨a, ha⟩ := key x (hs x (by simp))
      obtain ⟨b, hb⟩ := key y (hs y (by simp))
      obtain ⟨r, hr⟩ := ih rest (by simp at hn; omega) (by simp at h2; omega)
        (fun c hc => hs c (by simp [hc]))
      exact ⟨(a * 16 + b) :: r, by simp only [parseHexLoop, ha, hb, hr, bind, Except.bind]⟩

/-! ## Base32 -/

/-- Bit `n` of a byte string, most significant bit of the first byte first; `false` beyond the end. -/
def bitAt (b : Bytes) (n : Nat) : Bool :=
  match b[n / 8]? with
  | none => false
  | some x => x.toNat.testBit (7 - n % 8)

theorem ext_bits (a b : Bytes) (hl : a.length = b.length)
    (h : ∀ n, n < 8 * a.length → bitAt a n = bitAt b n) : a = b := by
  apply List.ext_getElem hl
  intro i h1 h2
  apply UInt8.toNat_inj.mp
  apply Nat.eq_of_testBit_eq
  intro j
  by_cases hj : j < 8
  · have := h (8 * i + (7 - j)) (by omega)
    unfold bitAt at this
    rw [show (8 * i + (7 - j)) / 8 = i by omega, show (8 * i + (7 - j)) % 8 = 7 - j by omega,
      List.getElem?_eq_getElem h1, List.getElem?_eq_getElem h2] at this
    dsimp only at this
    rwa [show 7 - (7 - j) = j by omega] at this
  · rw [Nat.testBit_lt_two_pow, Nat.testBit_lt_two_pow]
    · exact lt_of_lt_of_le b[i].toNat_lt (Nat.pow_le_pow_right (by omega) (by omega))
    · exact lt_of_lt_of_le a[i].toNat_lt (Nat.pow_le_pow_right (by omega) (by omega))

theorem alphabetIndex_bits (b next i : Nat) (hb : b < 256) (hn : next < 256) (hi : i < 8) :
    ∃ a, alphabetIndex b next i = .ok a ∧ a < 32 ∧
      ∀ t, t < 5 → a.testBit (4 - t) =
        if i + t < 8 then b.testBit (7 - (i + t)) else next.testBit (7 - (i + t - 8)) := by
  have hlt : ∀ x : Nat, x &&& 31 < 32 := fun x => Nat.and_lt_two_pow (n := 5) x (by omega)
  have hbf : ∀ j, 8 ≤ j → b.testBit j = false := fun j hj =>
    Nat.testBit_lt_two_pow (lt_of_lt_of_le hb (Nat.pow_le_pow_right (n := 2) (by omega) hj))
  have hnf : ∀ j, 8 ≤ j → next.testBit j = false := fun j hj =>
    Nat.testBit_lt_two_pow (lt_of_lt_of_le hn (Nat.pow_le_pow_right (n := 2) (by omega) hj))
  have hor : ∀ x y : Nat, x < 32 → y < 32 → x ||| y < 32 := fun x y h1 h2 => Nat.or_lt_two_pow (n := 5) h1 h2
  have hand : ∀ x k : Nat, x &&& (2 ^ k - 1) = x % 2 ^ k := fun x k => Nat.and_two_pow_sub_one_eq_mod x k
  have h1 := hand b 4
  have h2 := hand b 3
  have h3 := hand b 2
  have h5 := fun x => hand x 5
  norm_num at h1 h2 h3 h5
  have h4 : b &&& 1 = b % 2 := Nat.and_one_is_mod b
  have m5 : ∀ x k, (x % 32).testBit k = (decide (k < 5) && x.testBit k) :=
    fun x k => Nat.testBit_mod_two_pow x 5 k
  have m4 : ∀ x k, (x % 16).testBit k = (decide (k < 4) && x.testBit k) :=
    fun x k => Nat.testBit_mod_two_pow x 4 k
  have m3 : ∀ x k, (x % 8).testBit k = (decide (k < 3) && x.testBit k) :=
    fun x k => Nat.testBit_mod_two_pow x 3 k
  have m2 : ∀ x k, (x % 4).testBit k = (decide (k < 2) && x.testBit k) :=
    fun x k => Nat.testBit_mod_two_pow x 2 k
  have m1 : ∀ x k, (x % 2).testBit k = (decide (k < 1) && x.testBit k) :=
    fun x k => Nat.testBit_mod_two_pow x 1 k
  interval_cases i <;> refine ⟨_, rfl, ?_, ?_⟩ <;>
    first
    | exact hlt _
    | (apply hor <;> simp only [Nat.shiftLeft_eq, Nat.shiftRight_eq_div_pow, h1, h2, h3, h4] <;> omega)
    | (intro t ht
       interval_cases t <;>
         simp [Nat.testBit_or, Nat.testBit_shiftLeft, Nat.testBit_shiftRight, h1, h2, h3, h4, h5, hnf,
           m5, m4, m3, m2, m1])

theorem bitAt_of_byte (b : Bytes) (n : Nat) (k t : Nat) (hk : n = 8 * k + t) (ht : t < 16) :
    bitAt b n = if t < 8 then ((b[k]?.map UInt8.toNat).getD 0).testBit (7 - t)
      else ((b[k + 1]?.map UInt8.toNat).getD 0).testBit (7 - (t - 8)) := by
  unfold bitAt
  split
  · rename_i h
    split
    · rename_i h8
      rw [show n / 8 = k by omega] at h
      rw [h]; simp
    · rename_i h8
      rw [show n / 8 = k + 1 by omega] at h
      rw [h]; simp
  · rename_i x h
    split
    · rename_i h8
      rw [show n / 8 = k by omega] at h
      rw [h, show n % 8 = t by omega]; rfl
    · rename_i h8
      rw [show n / 8 = k + 1 by omega] at h
      rw [h, show n % 8 = t - 8 by omega]; rfl

theorem base32Symbol_bits (b : Bytes) (j : Nat) (hj : 5 * j < b.length * 8) :
    ∃ a c, base32Symbol b j = .ok c ∧ a < 32 ∧ upper32[a]? = some c ∧
      ∀ t, t < 5 → a.testBit (4 - t) = bitAt b (5 * j + t) := by
  have hk : 5 * j / 8 < b.length := by omega
  have hb := b[5 * j / 8].toNat_lt
  have hn : ((b[5 * j / 8 + 1]?.map UInt8.toNat).getD 0) < 256 := by
    cases b[5 * j / 8 + 1]? with
    | none => simp
    | some x => exact x.toNat_lt
  obtain ⟨a, h1, h2, h3⟩ := alphabetIndex_bits _ _ (5 * j % 8) hb hn (by omega)
  have hlen : upper32.length = 32 := by decide
  refine ⟨a, upper32[a], ?_, h2, List.getElem?_eq_getElem (by omega), ?_⟩
  · simp only [base32Symbol, List.getElem?_eq_getElem hk, h1]
    rw [if_neg (by omega), List.getElem?_eq_getElem (show a < upper32.length by omega)]
    rfl
  · intro t ht
    rw [h3 t ht, bitAt_of_byte b (5 * j + t) (5 * j / 8) (5 * j % 8 + t) (by omega) (by omega),
      List.getElem?_eq_getElem hk]
    simp

theorem base32EncodeLoop_spec (b : Bytes) : ∀ fuel j, b.length * 8 ≤ 5 * (j + fuel) →
    ∃ s, base32EncodeLoop b fuel j = .ok s ∧ s.length = (b.length * 8 - 5 * j + 4) / 5 ∧
      ∀ i c, s[i]? = some c → ∃ a, a < 32 ∧ upper32[a]? = some c ∧
        ∀ t, t < 5 → a.testBit (4 - t) = bitAt b (5 * (j + i) + t) := by
  intro fuel
  induction fuel with
  | zero =>
    intro j hj
    refine ⟨[], ?_, ?_, by simp⟩
    · simp only [base32EncodeLoop]; rw [if_neg (by omega)]
    · simp; omega
  | succ fuel ih =>
    intro j hj
    by_cases hlt : 5 * j < b.length * 8
    · obtain ⟨a, c, h1, h2, h3, h4⟩ := base32Symbol_bits b j hlt
      obtain ⟨s, e1, e2, e3⟩ := ih (j + 1) (by omega)
      refine ⟨c :: s, ?_, ?_, ?_⟩
      · simp only [base32EncodeLoop]
        rw [if_pos hlt, h1]
        simp only [e1, bind, Except.bind]
      · simp only [List.length_cons, e2]; omega
      · intro i c' hi
        cases i with
        | zero =>
          simp only [List.getElem?_cons_zero, Option.some.injEq] at hi
          subst hi
          exact ⟨a, h2, h3, fun t ht => by simpa using h4 t ht⟩
        | succ i =>
          simp only [List.getElem?_cons_succ] at hi
          obtain ⟨a', g1, g2, g3⟩ := e3 i c' hi
          exact ⟨a', g1, g2, fun t ht => by rw [g3 t ht]; congr 1; omega⟩
    · refine ⟨[], ?_, ?_, by simp⟩
      · simp only [base32EncodeLoop]; rw [if_neg hlt]
      · simp; omega

theorem base32Encode_spec (b : Bytes) :
    ∃ s, base32Encode b = .ok s ∧ s.length = (b.length * 8 + 4) / 5 ∧
      ∀ i c, s[i]? = some c → ∃ a, a < 32 ∧ upper32[a]? = some c ∧
        ∀ t, t < 5 → a.testBit (4 - t) = bitAt b (5 * i + t) := by
  obtain ⟨s, h1, h2, h3⟩ := base32EncodeLoop_spec b (b.length * 8) 0 (by omega)
  exact ⟨s, h1, by simpa using h2, fun i c hi => by simpa using h3 i c hi⟩

set_option maxRecDepth 100000 in
theorem base32Group_upper : ∀ a : Fin 32, ∃ c, upper32[a.val]? = some c ∧ base32Group c = some a.val := by
  decide +kernel

set_option maxRecDepth 100000 in
theorem base32Group_lower : ∀ a : Fin 32, ∃ c, lower32[a.val]? = some c ∧ base32Group c = some a.val := by
  decide +kernel

def pairOk (g i : Nat) : Bool :=
  match base32Pair g i with
  | .error _ => false
  | .ok p => (List.range 8).all fun q =>
      (UInt8.ofNat p.1).toNat.testBit (7 - q) == (decide (i ≤ q ∧ q < i + 5) && g.testBit (4 - (q - i))) &&
      (UInt8.ofNat p.2).toNat.testBit (7 - q) == (decide (q + 8 < i + 5) && g.testBit (4 - (q + 8 - i)))

set_option maxRecDepth 100000 in
theorem pairOk_all : ∀ g : Fin 32, ∀ i : Fin 8, pairOk g.val i.val = true := by decide +kernel

theorem base32Pair_bits (g i : Nat) (hg : g < 32) (hi : i < 8) :
    ∃ p, base32Pair g i = .ok p ∧ ∀ q, q < 8 →
      (UInt8.ofNat p.1).toNat.testBit (7 - q) = (decide (i ≤ q ∧ q < i + 5) && g.testBit (4 - (q - i))) ∧
      (UInt8.ofNat p.2).toNat.testBit (7 - q) = (decide (q + 8 < i + 5) && g.testBit (4 - (q + 8 - i))) := by
  have h := pairOk_all ⟨g, hg⟩ ⟨i, hi⟩
  unfold pairOk at h
  dsimp only at h
  split at h
  · cases h
  · rename_i p hp
    refine ⟨p, hp, fun q hq => ?_⟩
    rw [List.all_eq_true] at h
    have := h q (List.mem_range.mpr hq)
    simpa only [Bool.and_eq_true, beq_iff_eq] using this

theorem orAt_bits (out : Bytes) (i v : Nat) (hi : i < out.length) :
    ∃ o, orAt out i v = .ok o ∧ o.length = out.length ∧
      ∀ n, bitAt o n = (bitAt out n || (decide (n / 8 = i) && (UInt8.ofNat v).toNat.testBit (7 - n % 8))) := by
  refine ⟨out.set i (out[i] ||| UInt8.ofNat v), ?_, by simp, ?_⟩
  · simp only [orAt, List.getElem?_eq_getElem hi]
  · intro n
    unfold bitAt
    rw [List.getElem?_set]
    by_cases h : i = n / 8
    · subst h
      rw [if_pos rfl, if_pos hi, List.getElem?_eq_getElem hi]
      simp [UInt8.toNat_or, Nat.testBit_or]
    · rw [if_neg h]
      simp [Ne.symm h]

theorem base32Step_bits (out : Bytes) (i : Nat) (c : UInt8) (g : Nat) (hc : base32Group c = some g)
    (hg : g < 32) (hi : 5 * i < 8 * out.length) :
    ∃ o, base32Step out i c = .ok o ∧ o.length = out.length ∧
      ∀ n, n < 8 * out.length → bitAt o n = (bitAt out n || (decide (5 * i ≤ n ∧ n < 5 * i + 5) && g.testBit (4 - (n - 5 * i)))) := by
  obtain ⟨p, hp, hb⟩ := base32Pair_bits g (i * 5 % 8) hg (by omega)
  obtain ⟨o1, h1, h2, h3⟩ := orAt_bits out (i * 5 / 8) p.1 (by omega)
  by_cases hlast : i * 5 / 8 + 1 < out.length
  · obtain ⟨o2, e1, e2, e3⟩ := orAt_bits o1 (i * 5 / 8 + 1) p.2 (by omega)
    refine ⟨o2, ?_, by omega, ?_⟩
    · simp only [base32Step, hc, hp]
      rw [if_neg (by omega), h1]
      dsimp only
      rw [if_pos (by omega), e1]
    · intro n hn
      rw [e3, h3, (hb (n % 8) (by omega)).1, (hb (n % 8) (by omega)).2, Bool.or_assoc]
      congr 1
      by_cases ha : n / 8 = i * 5 / 8
      · rw [show (n - 5 * i) = n % 8 - i * 5 % 8 by omega]
        by_cases hq : i * 5 % 8 ≤ n % 8 ∧ n % 8 < i * 5 % 8 + 5
        · rw [decide_eq_true (show 5 * i ≤ n ∧ n < 5 * i + 5 by omega), decide_eq_true ha, decide_eq_true hq,
            decide_eq_false (show ¬ n / 8 = i * 5 / 8 + 1 by omega)]
          simp
        · rw [decide_eq_false (show ¬ (5 * i ≤ n ∧ n < 5 * i + 5) by omega), decide_eq_true ha, decide_eq_false hq,
            decide_eq_false (show ¬ n / 8 = i * 5 / 8 + 1 by omega)]
          simp
      · by_cases hb' : n / 8 = i * 5 / 8 + 1
        · rw [show (n - 5 * i) = n % 8 + 8 - i * 5 % 8 by omega]
          by_cases hq : n % 8 + 8 < i * 5 % 8 + 5
          · rw [decide_eq_true (show 5 * i ≤ n ∧ n < 5 * i + 5 by omega), decide_eq_false ha, decide_eq_true hq,
              decide_eq_true hb']
            simp
          · rw [decide_eq_false (show ¬ (5 * i ≤ n ∧ n < 5 * i + 5) by omega), decide_eq_false ha, decide_eq_false hq]
            simp
        · rw [decide_eq_false (show ¬ (5 * i ≤ n ∧ n < 5 * i + 5) by omega), decide_eq_false ha, decide_eq_false hb']
          simp
  · refine ⟨o1, ?_, h2, ?_⟩
    · simp only [base32Step, hc, hp]
      rw [if_neg (by omega), h1]
      dsimp only
      rw [if_neg (by omega)]
    · intro n hn
      rw [h3, (hb (n % 8) (by omega)).1]
      congr 1
      by_cases ha : n / 8 = i * 5 / 8
      · rw [show (n - 5 * i) = n % 8 - i * 5 % 8 by omega]
        by_cases hq : i * 5 % 8 ≤ n % 8 ∧ n % 8 < i * 5 % 8 + 5
        · rw [decide_eq_true (show 5 * i ≤ n ∧ n < 5 * i + 5 by omega), decide_eq_true ha, decide_eq_true hq]
          simp
        · rw [decide_eq_false (show ¬ (5 * i ≤ n ∧ n < 5 * i + 5) by omega), decide_eq_true ha, decide_eq_false hq]
          simp
      · rw [decide_eq_false (show ¬ (5 * i ≤ n ∧ n < 5 * i + 5) by omega), decide_eq_false ha]
        simp

/-- Bit `n` of the sequence of 5-bit groups. -/
def groupBit (gs : List Nat) (n : Nat) : Bool :=
  match gs[n / 5]? with
  | none => false
  | some g => g.testBit (4 - n % 5)

theorem base32DecodeLoop_spec : ∀ (s : Bytes) (gs : List Nat) (out : Bytes) (i : Nat),
    s.map base32Group = gs.map some → (∀ g ∈ gs, g < 32) →
    (s ≠ [] → 5 * (i + s.length - 1) < 8 * out.length) →
    ∃ o, base32DecodeLoop out i s = .ok o ∧ o.length = out.length ∧
      ∀ n, n < 8 * out.length → bitAt o n = (bitAt out n || (decide (5 * i ≤ n) && groupBit gs (n - 5 * i))) := by
  intro s
  induction s with
  | nil =>
    intro gs out i hs _ _
    have : gs = [] := by simpa using hs.symm
    subst this
    exact ⟨out, rfl, rfl, fun n _ => by simp [groupBit]⟩
  | cons c s ih =>
    intro gs out i hs hg hl
    cases gs with
    | nil => simp at hs
    | cons g gs =>
      simp only [List.map_cons, List.cons.injEq] at hs
      have hl' := hl (by simp)
      simp only [List.length_cons] at hl'
      obtain ⟨o1, h1, h2, h3⟩ := base32Step_bits out i c g hs.1 (hg g (by simp)) (by omega)
      obtain ⟨o2, e1, e2, e3⟩ := ih gs o1 (i + 1) hs.2 (fun g' hg' => hg g' (by simp [hg']))
        (fun _ => by omega)
      refine ⟨o2, ?_, by omega, ?_⟩
      · simp only [base32DecodeLoop, h1, e1]
      · intro n hn
        rw [e3 n (by omega), h3 n hn, Bool.or_assoc]
        congr 1
        by_cases ha : 5 * i ≤ n
        · by_cases hb : n < 5 * i + 5
          · rw [decide_eq_true (show 5 * i ≤ n ∧ n < 5 * i + 5 from ⟨ha, hb⟩), decide_eq_true ha,
              decide_eq_false (show ¬ 5 * (i + 1) ≤ n by omega)]
            simp only [groupBit]
            rw [show (n - 5 * i) / 5 = 0 by omega, show (n - 5 * i) % 5 = n - 5 * i by omega]
            simp
          · rw [decide_eq_false (show ¬ (5 * i ≤ n ∧ n < 5 * i + 5) by omega), decide_eq_true ha,
              decide_eq_true (show 5 * (i + 1) ≤ n by omega)]
            simp only [groupBit]
            rw [show (n - 5 * i) / 5 = (n - 5 * (i + 1)) / 5 + 1 by omega,
              show (n - 5 * i) % 5 = (n - 5 * (i + 1)) % 5 by omega]
            simp
        · rw [decide_eq_false (show ¬ (5 * i ≤ n ∧ n < 5 * i + 5) by omega), decide_eq_false ha,
              decide_eq_false (show ¬ 5 * (i + 1) ≤ n by omega)]
          simp

theorem bitAt_zeros (n k : Nat) : bitAt (zeros k) n = false := by
  unfold bitAt
  split
  · rfl
  · rename_i x h
    have := List.mem_of_getElem? h
    simp only [zeros, List.mem_replicate] at this
    rw [this.2]
    simp

/-- What `base32_decode` computes on a string over the alphabet whose last symbol starts inside the
    output. -/
theorem base32Decode_spec (s : Bytes) (gs : List Nat) (hs : s.map base32Group = gs.map some)
    (hg : ∀ g ∈ gs, g < 32) (hl : s ≠ [] → 5 * (s.length - 1) < 8 * (s.length * 5 / 8)) :
    ∃ o, base32Decode s = .ok o ∧ o.length = s.length * 5 / 8 ∧
      ∀ n, n < 8 * o.length → bitAt o n = groupBit gs n := by
  have hz : (zeros (s.length * 5 / 8)).length = s.length * 5 / 8 := by simp [zeros]
  obtain ⟨o, h1, h2, h3⟩ := base32DecodeLoop_spec s gs (zeros (s.length * 5 / 8)) 0 hs hg
    (fun h => by rw [hz]; simpa using hl h)
  refine ⟨o, h1, by omega, fun n hn => ?_⟩
  rw [h3 n (by omega), bitAt_zeros]
  simp

/-- A symbol that `base32_decode` accepts has a group of at most 32. -/
theorem base32Pair_ok (g i : Nat) (hi : i < 8) : ∃ p, base32Pair g i = .ok p := by
  interval_cases i <;> exact ⟨_, rfl⟩

theorem base32Step_safe (out : Bytes) (i : Nat) (c : UInt8) :
    (∃ o, base32Step out i c = .ok o ∧ o.length = out.length) ∨
      base32Step out i c = .error .invalidArg ∨ base32Step out i c = .error .outOfRange := by
  cases hc : base32Group c with
  | none => right; left; simp only [base32Step, hc]
  | some g =>
    obtain ⟨p, hp⟩ := base32Pair_ok g (i * 5 % 8) (by omega)
    by_cases h : i * 5 / 8 ≥ out.length
    · right; right
      simp only [base32Step, hc, hp]
      rw [if_pos h]
    · left
      obtain ⟨o1, h1, h2, _⟩ := orAt_bits out (i * 5 / 8) p.1 (by omega)
      by_cases hl : i * 5 / 8 + 1 < o1.length
      · obtain ⟨o2, e1, e2, _⟩ := orAt_bits o1 (i * 5 / 8 + 1) p.2 hl
        refine ⟨o2, ?_, by omega⟩
        simp only [base32Step, hc, hp]
        rw [if_neg h, h1]
        dsimp only
        rw [if_pos hl, e1]
      · refine ⟨o1, ?_, h2⟩
        simp only [base32Step, hc, hp]
        rw [if_neg h, h1]
        dsimp only
        rw [if_neg hl]

theorem base32DecodeLoop_safe : ∀ (s out : Bytes) (i : Nat),
    (∃ o, base32DecodeLoop out i s = .ok o ∧ o.length = out.length) ∨
      base32DecodeLoop out i s = .error .invalidArg ∨ base32DecodeLoop out i s = .error .outOfRange := by
  intro s
  induction s with
  | nil => intro out i; exact Or.inl ⟨out, rfl, rfl⟩
  | cons c s ih =>
    intro out i
    rcases base32Step_safe out i c with ⟨o, h, hl⟩ | h | h
    · rcases ih o (i + 1) with ⟨o', h', hl'⟩ | h' | h'
      · exact Or.inl ⟨o', by simp only [base32DecodeLoop, h, h'], by omega⟩
      · exact Or.inr (Or.inl (by simp only [base32DecodeLoop, h, h']))
      · exact Or.inr (Or.inr (by simp only [base32DecodeLoop, h, h']))
    · exact Or.inr (Or.inl (by simp only [base32DecodeLoop, h]))
    · exact Or.inr (Or.inr (by simp only [base32DecodeLoop, h]))

/-- Exactly which symbols `base32_decode` accepts. -/
theorem base32Group_mem (c : UInt8) : (∃ g, base32Group c = some g) ↔ c ∈ upper32 ∨ c ∈ lower32 ∨ c = 0 := by
  unfold base32Group strchrIdx
  constructor
  · rintro ⟨g, h⟩
    split at h
    · rename_i g' hg
      rw [List.findIdx?_eq_some_iff_getElem] at hg
      obtain ⟨h1, h2, _⟩ := hg
      have hm := List.getElem_mem h1
      rw [beq_iff_eq.mp h2] at hm
      rcases List.mem_append.mp hm with h | h
      · exact Or.inl h
      · exact Or.inr (Or.inr (by simpa using h))
    · rw [List.findIdx?_eq_some_iff_getElem] at h
      obtain ⟨h1, h2, _⟩ := h
      have hm := List.getElem_mem h1
      rw [beq_iff_eq.mp h2] at hm
      rcases List.mem_append.mp hm with h | h
      · exact Or.inr (Or.inl h)
      · exact Or.inr (Or.inr (by simpa using h))
  · intro h
    split
    · exact ⟨_, rfl⟩
    · rename_i hn
      rw [List.findIdx?_eq_none_iff] at hn
      cases hf : (lower32 ++ [0]).findIdx? (· == c) with
      | some g => exact ⟨g, rfl⟩
      | none =>
        rw [List.findIdx?_eq_none_iff] at hf
        exfalso
        rcases h with h | h | h
        · have := hn c (by simp [h]); simp at this
        · have := hf c (by simp [h]); simp at this
        · have := hf c (by simp [h]); simp at this

/-! ## Integers -/

theorem toLE_length (w v : Nat) : (toLE w v).length = w := by simp [toLE]

theorem toLE_getElem? (w v i : Nat) (h : i < w) : (toLE w v)[i]? = some (UInt8.ofNat (v >>> (8 * i))) := by
  simp [toLE, h]

theorem fromLE_fold (input : Bytes) (w : Nat) :
    ∀ n, ((List.range w).foldl (fun v i => v ||| (((input[i]?.map UInt8.toNat).getD 0) <<< (8 * i))) 0).testBit n =
      (decide (n < 8 * w) && ((input[n / 8]?.map UInt8.toNat).getD 0).testBit (n % 8)) := by
  induction w with
  | zero => intro n; simp
  | succ w ih =>
    intro n
    rw [List.range_succ, List.foldl_append]
    simp only [List.foldl_cons, List.foldl_nil, Nat.testBit_or, ih, Nat.testBit_shiftLeft]
    have hlt : ∀ k : Nat, ((input[k]?.map UInt8.toNat).getD 0) < 2 ^ 8 := by
      intro k
      cases input[k]? with
      | none => simp
      | some x => exact x.toNat_lt
    by_cases h1 : n < 8 * w
    · rw [decide_eq_true h1, decide_eq_false (show ¬ n ≥ 8 * w by omega),
        decide_eq_true (show n < 8 * (w + 1) by omega)]
      simp
    · by_cases h2 : n < 8 * (w + 1)
      · rw [decide_eq_false h1, decide_eq_true (show n ≥ 8 * w by omega), decide_eq_true h2,
          show n / 8 = w by omega, show n - 8 * w = n % 8 by omega]
        simp
      · rw [decide_eq_false h1, decide_eq_true (show n ≥ 8 * w by omega), decide_eq_false h2,
          Nat.testBit_lt_two_pow (lt_of_lt_of_le (hlt w) (Nat.pow_le_pow_right (by omega) (by omega)))]
        simp

theorem fromLE_bits (w : Nat) (input : Bytes) (h : w ≤ input.length) : ∃ v, fromLE w input = .ok v ∧ v < 2 ^ (8 * w) ∧
    ∀ n, v.testBit n = (decide (n < 8 * w) && ((input[n / 8]?.map UInt8.toNat).getD 0).testBit (n % 8)) := by
  refine ⟨_, by rw [fromLE, if_neg (by omega)], ?_, fromLE_fold input w⟩
  apply Nat.lt_pow_two_of_testBit
  intro i hi
  rw [fromLE_fold, decide_eq_false (by omega)]
  rfl

theorem fromLE_toLE (w v : Nat) (hv : v < 2 ^ (8 * w)) (rest : Bytes) : fromLE w (toLE w v ++ rest) = .ok v := by
  obtain ⟨u, h1, h2, h3⟩ := fromLE_bits w (toLE w v ++ rest) (by simp [toLE_length])
  rw [h1]
  congr 1
  apply Nat.eq_of_testBit_eq
  intro n
  rw [h3]
  by_cases h : n < 8 * w
  · rw [List.getElem?_append_left (by rw [toLE_length]; omega), toLE_getElem? w v (n / 8) (by omega)]
    simp only [h, decide_true, Bool.true_and, Option.map_some, Option.getD_some, UInt8.toNat_ofNat']
    rw [Nat.testBit_mod_two_pow, Nat.testBit_shiftRight, decide_eq_true (by omega), Bool.true_and]
    congr 1; omega
  · rw [decide_eq_false h, Nat.testBit_lt_two_pow (lt_of_lt_of_le hv (Nat.pow_le_pow_right (by omega) (by omega)))]
    rfl

theorem toLE_fromLE (w : Nat) (input : Bytes) (v : Nat) (h : fromLE w input = .ok v) :
    toLE w v = input.take w := by
  have hw : w ≤ input.length := by
    by_contra hc
    rw [fromLE, if_pos (by omega)] at h
    cases h
  obtain ⟨u, h1, h2, h3⟩ := fromLE_bits w input hw
  rw [h1] at h
  cases h
  apply List.ext_getElem (by simp [toLE_length]; omega)
  intro i hi hi'
  have hi0 : i < w := by simpa [toLE_length] using hi
  have := toLE_getElem? w v i hi0
  rw [List.getElem?_eq_getElem hi] at this
  rw [Option.some.inj this, List.getElem_take]
  apply UInt8.toNat_inj.mp
  apply Nat.eq_of_testBit_eq
  intro j
  rw [UInt8.toNat_ofNat', Nat.testBit_mod_two_pow, Nat.testBit_shiftRight, h3]
  by_cases hj : j < 8
  · rw [decide_eq_true hj, decide_eq_true (show 8 * i + j < 8 * w by omega),
      show (8 * i + j) / 8 = i by omega, show (8 * i + j) % 8 = j by omega,
      List.getElem?_eq_getElem (show i < input.length by omega)]
    simp
  · rw [decide_eq_false hj, Nat.testBit_lt_two_pow (lt_of_lt_of_le input[i].toNat_lt
      (Nat.pow_le_pow_right (by omega) (by omega)))]
    rfl

end Securefs

import Verif.Proofs.Encoding
import Verif.Spec.Encoding
/-!
# Properties C14, C15 and C18: hexadecimal, base32, integers

`hexify`, `parseHex`, `base32Encode`, `base32Decode`, `toLE`, `fromLE` and `inodeNumber` are the model of
the code; `Spec.*` is what they are supposed to compute.
-/

namespace Securefs.Props

open Securefs

/-! ## C14 -/

/-- C14: `hexify` writes the two lower-case digits of every byte, high digit first, and never fails. -/
theorem C14_hexify_exact (b : Bytes) :
    hexify b = .ok (b.flatMap fun x => [Spec.hexDigit (x.toNat / 16), Spec.hexDigit (x.toNat % 16)]) := by
  have key : ∀ n : Fin 16, hexTable[n.val]? = some (Spec.hexDigit n.val) := by decide
  induction b with
  | nil => rfl
  | cons x xs ih =>
    have hx := x.toNat_lt
    have h1 := key ⟨x.toNat / 16, by omega⟩
    have h2 := key ⟨x.toNat % 16, by omega⟩
    dsimp only at h1 h2
    simp only [hexify, h1, h2, ih, bind, Except.bind, List.flatMap_cons, List.cons_append, List.nil_append]

example : hexify [0, 0x9f, 0xa0] = .ok [48, 48, 57, 102, 97, 48] := by decide

/-- C14: the encoding has twice the length and consists of lower-case hexadecimal digits. -/
theorem C14_hexify_shape (b s : Bytes) (h : hexify b = .ok s) :
    s.length = 2 * b.length ∧ ∀ c ∈ s, Spec.IsHexDigit c := by
  have key : ∀ c ∈ hexTable, (48 ≤ c.toNat ∧ c.toNat ≤ 57) ∨ (97 ≤ c.toNat ∧ c.toNat ≤ 102) := by decide
  obtain ⟨s', h1, h2, h3, _⟩ := hexify_ok b
  rw [h] at h1; cases h1
  exact ⟨h2, fun c hc => key c (h3 c hc)⟩

/-- C14: decoding the hexadecimal form of any byte string gives it back. -/
theorem C14_round_trip (b : Bytes) : ∃ s, hexify b = .ok s ∧ parseHex s = .ok b := by
  obtain ⟨s, h1, h2, _, h4⟩ := hexify_ok b
  refine ⟨s, h1, ?_⟩
  unfold parseHex parseHexInto
  rw [if_neg (by omega), if_neg (by omega), if_neg (by simp), h4]

example : parseHex [48, 48, 57, 102, 97, 48] = .ok [0, 0x9f, 0xa0] := by decide

/-- C14: decoding accepts exactly the strings of even length made of lower-case digits. -/
theorem C14_parse_accepts (s : Bytes) :
    (∃ b, parseHex s = .ok b) ↔ s.length % 2 = 0 ∧ ∀ c ∈ s, Spec.IsHexDigit c := by
  have key : ∀ c : UInt8, Spec.IsHexDigit c → c ∈ hexTable := by
    intro c hc
    have : ∀ n : Fin 256, ((48 ≤ n.val ∧ n.val ≤ 57) ∨ (97 ≤ n.val ∧ n.val ≤ 102)) →
        UInt8.ofNat n.val ∈ hexTable := by decide +kernel
    have h := this ⟨c.toNat, c.toNat_lt⟩ hc
    simpa using h
  constructor
  · rintro ⟨b, h⟩
    unfold parseHex parseHexInto at h
    by_cases h2 : s.length % 2 ≠ 0
    · rw [if_pos h2] at h; cases h
    · rw [if_neg h2, if_neg h2, if_neg (by simp)] at h
      exact ⟨by omega, (C14_hexify_shape b s (parseHexLoop_inv s.length s b (le_refl _) h)).2⟩
  · rintro ⟨h1, h2⟩
    obtain ⟨b, hb⟩ := parseHexLoop_total s.length s (le_refl _) h1 (fun c hc => key c (h2 c hc))
    refine ⟨b, ?_⟩
    unfold parseHex parseHexInto
    rw [if_neg (by omega), if_neg (by omega), if_neg (by simp), hb]

/-- Upper case is refused. -/
example : ¬ ∃ b, parseHex [65, 48] = .ok b := by
  rw [C14_parse_accepts]
  rintro ⟨_, h⟩
  have := h 65 (by simp)
  revert this
  unfold Spec.IsHexDigit
  decide

/-- C14: decoding is injective on what it accepts: the string is the encoding of the result. -/
theorem C14_parse_canonical (s b : Bytes) (h : parseHex s = .ok b) : hexify b = .ok s := by
  unfold parseHex parseHexInto at h
  by_cases h2 : s.length % 2 ≠ 0
  · rw [if_pos h2] at h; cases h
  · rw [if_neg h2, if_neg h2, if_neg (by simp)] at h
    exact parseHexLoop_inv s.length s b (le_refl _) h

/-- C14: two accepted strings with the same value are equal. -/
theorem C14_parse_injective (s s' b : Bytes) (h : parseHex s = .ok b) (h' : parseHex s' = .ok b) : s = s' := by
  have := C14_parse_canonical s b h
  rw [C14_parse_canonical s' b h'] at this
  exact (Except.ok.inj this).symm

/-- C14: decoding into a buffer of `len` bytes succeeds exactly if the text has `2 * len` digits, and then
    gives the same bytes; so the buffer is never overrun. -/
theorem C14_parse_into (s : Bytes) (len : Nat) (b : Bytes) :
    parseHexInto s len = .ok b ↔ parseHex s = .ok b ∧ b.length = len := by
  have hl : parseHex s = .ok b → s.length = 2 * b.length := fun h => (C14_hexify_shape b s (C14_parse_canonical s b h)).1
  constructor
  · intro h
    have h0 := h
    unfold parseHexInto at h
    by_cases h2 : s.length % 2 ≠ 0
    · rw [if_pos h2] at h; cases h
    rw [if_neg h2] at h
    by_cases h3 : s.length / 2 ≠ len
    · rw [if_pos h3] at h; cases h
    · have h4 : s.length / 2 = len := by simpa using h3
      have h5 : parseHex s = .ok b := by
        unfold parseHex
        rw [if_neg h2, h4, h0]
      refine ⟨h5, ?_⟩
      have := hl h5
      omega
  · rintro ⟨h1, h2⟩
    have h3 := hl h1
    unfold parseHex at h1
    rw [if_neg (by omega)] at h1
    rw [← h2, ← h1]
    congr 1
    omega

example : parseHexInto [48, 49, 97, 102] 2 = .ok [1, 0xaf] ∧ parseHexInto [48, 49, 97, 102] 3 = .error .invalidArg := by
  decide

/-! ## C15 -/

theorem bit_eq (b : Bytes) (n : Nat) : Spec.bit b n = bitAt b n := by
  unfold Spec.bit bitAt
  split
  · rename_i h; rw [h]
  · rename_i x h
    rw [h]
    dsimp only
    rw [Nat.testBit_eq_decide_div_mod_eq]
    rfl

theorem quintet_of_bits (b : Bytes) (j a : Nat) (ha : a < 32)
    (h : ∀ t, t < 5 → a.testBit (4 - t) = bitAt b (5 * j + t)) : a = Spec.quintet b j := by
  have key : ∀ a : Fin 32, a.val = 16 * (a.val.testBit 4).toNat + 8 * (a.val.testBit 3).toNat
      + 4 * (a.val.testBit 2).toNat + 2 * (a.val.testBit 1).toNat + (a.val.testBit 0).toNat := by decide
  have := key ⟨a, ha⟩
  dsimp only at this
  rw [this]
  have h0 := h 0 (by omega)
  have h1 := h 1 (by omega)
  have h2 := h 2 (by omega)
  have h3 := h 3 (by omega)
  have h4 := h 4 (by omega)
  simp only [Nat.sub_zero, show 4 - 1 = 3 from rfl, show 4 - 2 = 2 from rfl, show 4 - 3 = 1 from rfl,
    show 4 - 4 = 0 from rfl, Nat.add_zero] at h0 h1 h2 h3 h4
  rw [h0, h1, h2, h3, h4]
  simp only [Spec.quintet, bit_eq]

theorem alphabet_eq : upper32 = Spec.alphabet32 := by decide +kernel

/-- C15: encoding never fails; it has `ceil(8n/5)` symbols, and symbol `j` is the one of the `j`-th group of
    five bits (zeros follow after the last byte). -/
theorem C15_encode_exact (b : Bytes) : ∃ s, base32Encode b = .ok s ∧ s.length = (8 * b.length + 4) / 5 ∧
    ∀ j, j < s.length → ∃ c, s[j]? = some c ∧ Spec.alphabet32[Spec.quintet b j]? = some c := by
  obtain ⟨s, h1, h2, h3⟩ := base32Encode_spec b
  refine ⟨s, h1, by omega, fun j hj => ⟨s[j], List.getElem?_eq_getElem hj, ?_⟩⟩
  obtain ⟨a, g1, g2, g3⟩ := h3 j s[j] (List.getElem?_eq_getElem hj)
  rw [← quintet_of_bits b j a g1 g3, ← alphabet_eq, g2]

example : base32Encode [0xff, 0x01, 0x80] = .ok [57, 54, 65, 50, 65] := by decide +kernel

/-- C15: the encoded form uses only the 32 symbols. -/
theorem C15_alphabet (b s : Bytes) (h : base32Encode b = .ok s) : ∀ c ∈ s, c ∈ Spec.alphabet32 := by
  obtain ⟨s', h1, _, h3⟩ := C15_encode_exact b
  rw [h] at h1; cases h1
  intro c hc
  obtain ⟨j, hj, rfl⟩ := List.getElem_of_mem hc
  obtain ⟨c', e1, e2⟩ := h3 j hj
  rw [List.getElem?_eq_getElem hj] at e1
  cases e1
  exact List.mem_of_getElem? e2

/-- The decoder reads back either case of the symbols of an encoding. -/
theorem decode_of_groups (b s : Bytes) (gs : List Nat) (hs : s.map base32Group = gs.map some)
    (hl : s.length = (b.length * 8 + 4) / 5)
    (hg : ∀ (i : Nat) g, gs[i]? = some g → g < 32 ∧ ∀ t, t < 5 → g.testBit (4 - t) = bitAt b (5 * i + t)) :
    base32Decode s = .ok b := by
  obtain ⟨o, h1, h2, h3⟩ := base32Decode_spec s gs hs
    (fun g hm => by obtain ⟨i, hi⟩ := List.getElem?_of_mem hm; exact (hg i g hi).1)
    (fun hne => by
      have h0 : 0 < s.length := List.length_pos_iff.mpr hne
      have h1 : s.length * 5 / 8 = b.length := by omega
      rw [h1]
      omega)
  rw [h1]
  congr 1
  have hlen : o.length = b.length := by omega
  have hgl : gs.length = s.length := by
    have := congrArg List.length hs
    simpa using this.symm
  apply ext_bits o b hlen
  intro n hn
  rw [h3 n hn]
  unfold groupBit
  have hn5 : n / 5 < gs.length := by omega
  rw [List.getElem?_eq_getElem hn5]
  dsimp only
  rw [(hg (n / 5) gs[n / 5] (List.getElem?_eq_getElem hn5)).2 (n % 5) (by omega)]
  congr 1
  omega

/-- C15: decoding the base32 form of any byte string gives back exactly that byte string. -/
theorem C15_round_trip (b : Bytes) : ∃ s, base32Encode b = .ok s ∧ base32Decode s = .ok b := by
  obtain ⟨s, h1, h2, h3⟩ := base32Encode_spec b
  refine ⟨s, h1, ?_⟩
  have hex : ∀ i : Fin s.length, ∃ a, a < 32 ∧ upper32[a]? = some s[i] ∧
      ∀ t, t < 5 → a.testBit (4 - t) = bitAt b (5 * i.val + t) :=
    fun i => h3 i.val s[i] (List.getElem?_eq_getElem i.isLt)
  choose f hf1 hf2 hf3 using hex
  refine decode_of_groups b s ((List.finRange s.length).map f) ?_ h2 ?_
  · apply List.ext_getElem (by simp)
    intro i hi hi'
    have hi0 : i < s.length := by simpa using hi
    simp only [List.getElem_map, List.getElem_finRange]
    obtain ⟨c, e1, e2⟩ := base32Group_upper ⟨f ⟨i, hi0⟩, hf1 _⟩
    have e3 := hf2 ⟨i, hi0⟩
    dsimp only at e1
    rw [e1] at e3
    have e4 : c = s[i] := Option.some.inj e3
    rw [← e4, e2]
    rfl
  · intro i g hi
    rw [List.getElem?_map] at hi
    by_cases h : i < s.length
    · rw [List.getElem?_eq_getElem (by simpa using h)] at hi
      simp only [List.getElem_finRange, Option.map_some, Option.some.injEq] at hi
      subst hi
      exact ⟨hf1 _, fun t ht => hf3 ⟨i, h⟩ t ht⟩
    · rw [List.getElem?_eq_none (by simpa using h)] at hi
      simp at hi

example : base32Decode [57, 54, 65, 50, 65] = .ok [0xff, 0x01, 0x80] := by decide +kernel

/-- C15: distinct byte strings have distinct encodings. -/
theorem C15_injective (b b' s : Bytes) (h : base32Encode b = .ok s) (h' : base32Encode b' = .ok s) : b = b' := by
  obtain ⟨s1, e1, e2⟩ := C15_round_trip b
  obtain ⟨s2, e3, e4⟩ := C15_round_trip b'
  rw [h] at e1; cases e1
  rw [h'] at e3; cases e3
  rw [e2] at e4
  exact Except.ok.inj e4

/-- C15: whatever the input string, decoding stays inside its buffers: it returns `5n/8` bytes, or throws one
    of its two exceptions. -/
theorem C15_decode_safe (s : Bytes) : (∃ b, base32Decode s = .ok b ∧ b.length = 5 * s.length / 8) ∨
    base32Decode s = .error .invalidArg ∨ base32Decode s = .error .outOfRange := by
  rcases base32DecodeLoop_safe s (zeros (s.length * 5 / 8)) 0 with ⟨o, h, hl⟩ | h | h
  · refine Or.inl ⟨o, h, ?_⟩
    rw [hl]
    simp only [zeros, List.length_replicate]
    omega
  · exact Or.inr (Or.inl h)
  · exact Or.inr (Or.inr h)

/-- All three outcomes occur. -/
example : base32Decode [65, 65] = .ok [0] ∧ base32Decode [48] = .error .invalidArg ∧
    base32Decode [65] = .error .outOfRange := by decide +kernel

/-- C15, limit of the claim: decoding itself is *not* injective.  Lower case, non-zero padding bits and even
    NUL characters are accepted as further spellings of the same byte string. -/
theorem C15_decode_not_injective :
    base32Encode [0] = .ok [65, 65] ∧ base32Decode [65, 65] = .ok [0] ∧ base32Decode [97, 97] = .ok [0] ∧
      base32Decode [65, 66] = .ok [0] ∧ base32Decode [0, 65] = .ok [0] := by decide +kernel

/-! ## C18 -/

theorem leValue_bits (b : Bytes) : ∀ n, (Spec.leValue b).testBit n = ((b[n / 8]?.map UInt8.toNat).getD 0).testBit (n % 8) := by
  induction b with
  | nil => intro n; simp [Spec.leValue]
  | cons x xs ih =>
    intro n
    have hx := x.toNat_lt
    rw [Spec.leValue, Nat.add_comm, show 256 = 2 ^ 8 from rfl, Nat.testBit_two_pow_mul_add _ hx]
    by_cases h : n < 8
    · rw [if_pos h, show n / 8 = 0 by omega, show n % 8 = n by omega]
      rfl
    · rw [if_neg h, ih, show n / 8 = (n - 8) / 8 + 1 by omega, show n % 8 = (n - 8) % 8 by omega]
      rfl

/-- C18: what is stored is the little-endian form: `w` bytes with the value of the number. -/
theorem C18_stored_form (w v : Nat) (hv : v < 2 ^ (8 * w)) :
    (toLE w v).length = w ∧ Spec.leValue (toLE w v) = v := by
  refine ⟨toLE_length w v, ?_⟩
  have h1 := fromLE_toLE w v hv []
  rw [List.append_nil] at h1
  obtain ⟨u, e1, _, e3⟩ := fromLE_bits w (toLE w v) (by rw [toLE_length])
  rw [h1] at e1; cases e1
  apply Nat.eq_of_testBit_eq
  intro n
  rw [leValue_bits, e3]
  by_cases h : n < 8 * w
  · rw [decide_eq_true h, Bool.true_and]
  · rw [decide_eq_false h, List.getElem?_eq_none (by rw [toLE_length]; omega)]
    simp

example : toLE 4 0x01020304 = [4, 3, 2, 1] ∧ 0x01020304 < 2 ^ (8 * 4) := by decide

/-- C18: every unsigned value is read back unchanged, whatever follows in the buffer. -/
theorem C18_round_trip (w v : Nat) (hv : v < 2 ^ (8 * w)) (rest : Bytes) : fromLE w (toLE w v ++ rest) = .ok v :=
  fromLE_toLE w v hv rest

/-- C18: distinct values have distinct stored forms. -/
theorem C18_injective (w v v' : Nat) (hv : v < 2 ^ (8 * w)) (hv' : v' < 2 ^ (8 * w))
    (h : toLE w v = toLE w v') : v = v' := by
  have h1 := fromLE_toLE w v hv []
  rw [h, fromLE_toLE w v' hv' []] at h1
  exact (Except.ok.inj h1).symm

/-- C18: reading `w` bytes and writing them again gives the same bytes. -/
theorem C18_read_write (w : Nat) (input : Bytes) (v : Nat) (h : fromLE w input = .ok v) :
    v < 2 ^ (8 * w) ∧ v = Spec.leValue (input.take w) ∧ toLE w v = input.take w := by
  have hw : w ≤ input.length := by
    by_contra hc
    rw [fromLE, if_pos (by omega)] at h
    cases h
  obtain ⟨u, e1, e2, _⟩ := fromLE_bits w input hw
  rw [h] at e1; cases e1
  have h1 := toLE_fromLE w input v h
  refine ⟨e2, ?_, h1⟩
  rw [← h1, (C18_stored_form w v e2).2]

example : fromLE 2 [0x34, 0x12, 0xff] = .ok 0x1234 := by decide

/-- C18: the inode number is `2^64 - 1` minus the number in the first eight bytes of the identifier. -/
theorem C18_inode_value (id : Bytes) (h : 8 ≤ id.length) :
    inodeNumber id = .ok (2 ^ 64 - 1 - Spec.leValue (id.take 8)) := by
  obtain ⟨u, e1, e2, _⟩ := fromLE_bits 8 id h
  unfold inodeNumber
  rw [e1]
  simp only [bind, Except.bind]
  rw [(C18_read_write 8 id u e1).2.1]

/-- C18: the inode number is a one-to-one function of the first eight bytes. -/
theorem C18_inode_injective (id id' : Bytes) (n : Nat) (h : inodeNumber id = .ok n) (h' : inodeNumber id' = .ok n) :
    id.take 8 = id'.take 8 := by
  unfold inodeNumber at h h'
  simp only [bind, Except.bind] at h h'
  split at h
  · cases h
  rename_i v hv
  split at h'
  · cases h'
  rename_i v' hv'
  have b1 := (C18_read_write 8 id v hv).1
  have b2 := (C18_read_write 8 id' v' hv').1
  have : v = v' := by
    have e1 := Except.ok.inj h
    have e2 := Except.ok.inj h'
    have : (2 : Nat) ^ (8 * 8) = 2 ^ 64 := rfl
    omega
  rw [← (C18_read_write 8 id v hv).2.2, ← (C18_read_write 8 id' v' hv').2.2, this]

/-- C18: every 64-bit inode number is taken, so the function is onto. -/
theorem C18_inode_surjective (n : Nat) (hn : n < 2 ^ 64) :
    ∃ id : Bytes, id.length = 32 ∧ inodeNumber id = .ok n := by
  refine ⟨toLE 8 (2 ^ 64 - 1 - n) ++ zeros 24, by simp [toLE_length, zeros], ?_⟩
  unfold inodeNumber
  rw [fromLE_toLE 8 _ (by have : (2 : Nat) ^ (8 * 8) = 2 ^ 64 := rfl; omega)]
  simp only [bind, Except.bind]
  congr 1
  omega

/-- C18: the inode number of the root, whose identifier is all zeros, is not zero. -/
theorem C18_root_inode : inodeNumber (zeros 32) = .ok (2 ^ 64 - 1) ∧ (2 : Nat) ^ 64 - 1 ≠ 0 := by decide +kernel

end Securefs.Props

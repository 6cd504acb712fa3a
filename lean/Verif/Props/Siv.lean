import Verif.Proofs.Siv
import Verif.Props.Encoding
/-!
# Properties C16, C17 and C19: synthetic-IV encryption, HKDF, attribute names
-/

namespace Securefs.Props

open Securefs

/-! ## C16 -/

/-- A stand-in for CMAC and counter mode, for the examples. -/
def Toy.siv : Siv where
  cmac m := (m ++ zeros 16).take 16
  ctr iv n := (List.replicate n (5 : UInt8)).map (· + (iv.headD 0))

theorem Toy.siv_wf : Toy.siv.WF where
  cmac_len m := by simp [Toy.siv, zeros]
  ctr_len iv n := by simp [Toy.siv]

/-- C16: encryption never fails and is what RFC 5297 prescribes for the vector (additional data, text), or
    (text) alone if the additional data is empty. -/
theorem C16_encrypt_rfc5297 (S : Siv) (hS : S.WF) (text ad : Bytes) : ∃ c v, S.encrypt text ad = .ok (c, v) ∧
    Spec.IsSivEncryption S.cmac S.ctr (if ad = [] then [] else [ad]) text c v := by
  obtain ⟨t, q, _, h2, _, h4, h5, h6⟩ := encrypt_spec hS text ad
  refine ⟨_, _, h6, ⟨t, ?_, rfl⟩, q, h4, h5, xor_ctr_len hS text q, ?_⟩
  · have : adVec ad = if ad = [] then [] else [ad] := by
      unfold adVec
      cases ad <;> simp
    rwa [← this]
  · rw [beValue_xor _ _ (hS.ctr_len _ _).symm]

example : ∃ c v, Toy.siv.encrypt [1, 2, 3] [9] = .ok (c, v) ∧ c.length = 3 := by
  obtain ⟨c, v, h, hc, _⟩ := C16_encrypt_rfc5297 Toy.siv Toy.siv_wf [1, 2, 3] [9]
  exact ⟨c, v, h, (decrypt_encrypt Toy.siv_wf _ _ _ _ h).2.2⟩

/-- C16: RFC 5297 leaves no choice: two pairs that both are the encryption of the same text are equal, so
    `C16_encrypt_rfc5297` fixes the output completely. -/
theorem C16_spec_deterministic (cmac : Bytes → Bytes) (ctr : Bytes → Nat → Bytes) (ads : List Bytes) (text c v c' v' : Bytes)
    (h : Spec.IsSivEncryption cmac ctr ads text c v) (h' : Spec.IsSivEncryption cmac ctr ads text c' v') :
    c = c' ∧ v = v' := by
  obtain ⟨⟨t, ht, rfl⟩, q, q1, q2, q3, q4⟩ := h
  obtain ⟨⟨t', ht', rfl⟩, q', q1', q2', q3', q4'⟩ := h'
  have et : t = t' := by
    unfold Spec.IsS2vInput at ht ht'
    by_cases hg : text.length ≥ 16
    · rw [if_pos hg] at ht ht'
      rw [← List.take_append_drop (text.length - 16) t, ← List.take_append_drop (text.length - 16) t', ht.2.1, ht'.2.1]
      congr 1
      apply beValue_inj
      · simp [ht.1, ht'.1]
      · rw [ht.2.2, ht'.2.2]
    · rw [if_neg hg] at ht ht'
      exact beValue_inj _ _ (by omega) (by rw [ht.2, ht'.2])
  subst et
  have eq : q = q' := beValue_inj _ _ (by omega) (by rw [q2, q2'])
  subst eq
  exact ⟨beValue_inj _ _ (by omega) (by rw [q4, q4']), rfl⟩

/-- C16: decryption of an encryption succeeds and returns the message. -/
theorem C16_round_trip (S : Siv) (hS : S.WF) (text ad : Bytes) :
    ∃ c v, S.encrypt text ad = .ok (c, v) ∧ c.length = text.length ∧ v.length = 16 ∧
      S.decrypt c ad v = .ok (true, text) := by
  obtain ⟨c, v, h, _⟩ := C16_encrypt_rfc5297 S hS text ad
  obtain ⟨h1, h2, h3⟩ := decrypt_encrypt hS text ad c v h
  exact ⟨c, v, h, h3, h2, h1⟩

/-- C16: whatever decryption accepts is exactly what encryption produces for the recovered message.  In
    particular an accepted pair never produced by encryption does not exist: acceptance of a changed
    ciphertext means having found the encryption of another message without the key. -/
theorem C16_accepts_only_encryptions (S : Siv) (hS : S.WF) (c ad v : Bytes) (hv : v.length = 16) :
    ∃ ok m, S.decrypt c ad v = .ok (ok, m) ∧ m.length = c.length ∧ (ok = true ↔ S.encrypt m ad = .ok (c, v)) :=
  decrypt_total hS c ad v hv

/-- Both answers occur. -/
example : Toy.siv.decrypt [0x87, 0x84, 0x85] [9] (Toy.siv.cmac [1, 2, 3, 0x80]) = .ok (false, [0x87 ^^^ 6, 0x84 ^^^ 6, 0x85 ^^^ 6]) ∧
    (∃ c v, Toy.siv.encrypt [1, 2, 3] [9] = .ok (c, v) ∧ Toy.siv.decrypt c [9] v = .ok (true, [1, 2, 3])) :=
  ⟨by decide +kernel, by
    obtain ⟨c, v, h1, _, _, h2⟩ := C16_round_trip Toy.siv Toy.siv_wf [1, 2, 3] [9]
    exact ⟨c, v, h1, h2⟩⟩

/-- C16: different messages have different encryptions. -/
theorem C16_injective (S : Siv) (hS : S.WF) (m m' ad c v : Bytes) (h : S.encrypt m ad = .ok (c, v))
    (h' : S.encrypt m' ad = .ok (c, v)) : m = m' := by
  have h1 := (decrypt_encrypt hS m ad c v h).1
  rw [(decrypt_encrypt hS m' ad c v h').1] at h1
  cases h1
  rfl

/-- C16: the ciphertext and the synthetic IV cannot be mixed: with the same associated data, equal synthetic IVs
    and ciphertexts of equal length but different content cannot both be accepted as the same message. -/
theorem C16_accepted_determined (S : Siv) (hS : S.WF) (c c' ad v v' m : Bytes) (hv : v.length = 16) (hv' : v'.length = 16)
    (h : S.decrypt c ad v = .ok (true, m)) (h' : S.decrypt c' ad v' = .ok (true, m)) : c = c' ∧ v = v' := by
  obtain ⟨ok, m1, e1, _, e3⟩ := decrypt_total hS c ad v hv
  rw [h] at e1; cases e1
  obtain ⟨ok, m2, g1, _, g3⟩ := decrypt_total hS c' ad v' hv'
  rw [h'] at g1; cases g1
  have := e3.mp rfl
  rw [g3.mp rfl] at this
  cases this
  exact ⟨rfl, rfl⟩

/-! ## C17 -/

/-- C17: with a salt, the derived bytes are those of RFC 5869 (extract, then expand), for every length up to
    8160. -/
theorem C17_rfc5869 (H : Hmac) (hH : ∀ k m, (H k m).length = 32) (key salt info : Bytes) (len : Nat)
    (hs : salt ≠ []) (hl : len ≤ 8160) : hkdf H key salt info len = .ok (Spec.hkdfExpand H (H salt key) info len) := by
  have : salt.length ≠ 0 := by
    have := List.length_pos_iff.mpr hs
    omega
  rw [hkdf, if_pos this, hkdfExpand_spec hH _ _ _ (by omega)]

/-- C17: without a salt the code deviates from RFC 5869: it skips the extraction and expands the key itself. -/
theorem C17_no_salt (H : Hmac) (hH : ∀ k m, (H k m).length = 32) (key info : Bytes) (len : Nat) (hl : len ≤ 8160) :
    hkdf H key [] info len = .ok (Spec.hkdfExpand H key info len) := by
  rw [hkdf, if_neg (by simp), hkdfExpand_spec hH _ _ _ (by omega)]

/-- C17: longer requests are rejected. -/
theorem C17_too_long (H : Hmac) (key salt info : Bytes) (len : Nat) (hl : 8160 < len) :
    hkdf H key salt info len = .error .invalidArg := by
  unfold hkdf hkdfExpand
  have h : len > 255 * 32 := by omega
  rw [if_pos h, if_pos h]
  split <;> rfl

/-- C17: exactly as many bytes as asked for are produced, and asking for fewer gives a prefix. -/
theorem C17_prefix (H : Hmac) (hH : ∀ k m, (H k m).length = 32) (key salt info : Bytes) (len len' : Nat)
    (h : len ≤ len') (hl : len' ≤ 8160) : ∃ b b', hkdf H key salt info len = .ok b ∧ hkdf H key salt info len' = .ok b' ∧
      b'.length = len' ∧ b = b'.take len := by
  have key' : ∀ prk : Bytes, (Spec.hkdfExpand H prk info len').length = len' ∧
      Spec.hkdfExpand H prk info len = (Spec.hkdfExpand H prk info len').take len := by
    intro prk
    have hal := hkdfAll_length hH prk info
    refine ⟨by rw [Spec.hkdfExpand, List.length_take, hal]; omega, ?_⟩
    rw [Spec.hkdfExpand, Spec.hkdfExpand, List.take_take, Nat.min_eq_left h]
    obtain ⟨t, ht⟩ := hkdfAll_prefix (H := H) prk info ((len + 31) / 32) ((len' + 31) / 32) (by omega)
    rw [← ht, List.take_append_of_le_length (by rw [hal]; omega)]
  by_cases hs : salt = []
  · subst hs
    exact ⟨_, _, C17_no_salt H hH key info len (by omega), C17_no_salt H hH key info len' hl, (key' key).1, (key' key).2⟩
  · exact ⟨_, _, C17_rfc5869 H hH key salt info len hs (by omega), C17_rfc5869 H hH key salt info len' hs hl,
      (key' _).1, (key' _).2⟩

/-- A stand-in for HMAC whose output depends on the message. -/
def Toy.hmac : Hmac := fun k m => (k ++ m ++ zeros 32).take 32

example : (∀ k m, (Toy.hmac k m).length = 32) ∧
    hkdf Toy.hmac [1] [2] [3] 40 = .ok (([2, 1] ++ zeros 30) ++ ([2, 1] ++ zeros 6)) ∧
    hkdf Toy.hmac [1] [2] [3] 8161 = .error .invalidArg := by
  refine ⟨fun k m => by simp [Toy.hmac, zeros]; omega, ?_, ?_⟩
  · decide +kernel
  · exact C17_too_long _ _ _ _ _ (by omega)

/-! ## C19 -/

/-- A stand-in for base64: hexadecimal. -/
def Toy.base64 : Base64 where
  escape b := b.flatMap fun x => [Spec.hexDigit (x.toNat / 16), Spec.hexDigit (x.toNat % 16)]
  unescape s := match parseHex s with | .ok b => some b | .error _ => none

theorem Toy.base64_lawful : Toy.base64.Lawful where
  unescape_escape b := by
    obtain ⟨s, h1, h2⟩ := C14_round_trip b
    rw [C14_hexify_exact] at h1
    cases h1
    simp only [Toy.base64, h2]
  no_nul b := by
    intro h
    have := (C14_hexify_shape b _ (C14_hexify_exact b)).2 0 h
    rcases this with ⟨h, _⟩ | ⟨h, _⟩ <;> simp at h

/-- C19: a non-empty attribute name is stored under a name that decodes back to it.  (Partial: for the empty
    name, which the kernel does not pass on, the claim is false, see `C19_empty_name`.) -/
theorem C19_round_trip_partial (S : Siv) (hS : S.WF) (B : Base64) (hB : B.Lawful) (name : Bytes) (hn : name ≠ []) :
    ∃ w, encryptXattrName S B name = .ok w ∧ decryptXattrName S B w = .ok (some name) := by
  obtain ⟨c, v, h, _⟩ := C16_encrypt_rfc5297 S hS name []
  refine ⟨userPrefix ++ B.escape (v ++ c), ?_, ?_⟩
  · unfold encryptXattrName
    rw [h]
    rfl
  · obtain ⟨r, h1, h2⟩ := decryptXattrName_total hS B (userPrefix ++ B.escape (v ++ c))
    rw [h1]
    congr 1
    refine (h2 name).mpr ⟨c, v, List.prefix_append _ _, ?_, h, hn⟩
    have : (userPrefix ++ B.escape (v ++ c)).drop 5 = B.escape (v ++ c) := rfl
    rw [this, hB.unescape_escape]

example : ∃ w, encryptXattrName Toy.siv Toy.base64 [97, 98] = .ok w ∧
    decryptXattrName Toy.siv Toy.base64 w = .ok (some [97, 98]) :=
  C19_round_trip_partial _ Toy.siv_wf _ Toy.base64_lawful _ (by simp)

/-- C19, deviation: the empty name is stored but never read back (the code takes a decoded text of exactly 16
    bytes for foreign). -/
theorem C19_empty_name (S : Siv) (hS : S.WF) (B : Base64) (hB : B.Lawful) :
    ∃ w, encryptXattrName S B [] = .ok w ∧ decryptXattrName S B w = .ok none := by
  obtain ⟨c, v, h, _⟩ := C16_encrypt_rfc5297 S hS [] []
  obtain ⟨_, hv, hc⟩ := decrypt_encrypt hS [] [] c v h
  refine ⟨userPrefix ++ B.escape (v ++ c), by unfold encryptXattrName; rw [h]; rfl, ?_⟩
  have hd : (userPrefix ++ B.escape (v ++ c)).drop 5 = B.escape (v ++ c) := rfl
  have hp : userPrefix.isPrefixOf (userPrefix ++ B.escape (v ++ c)) = true :=
    List.isPrefixOf_iff_prefix.mpr (List.prefix_append _ _)
  have hl : (v ++ c).length ≤ 16 := by
    rw [List.length_append, hv, hc]
    simp
  unfold decryptXattrName
  rw [if_pos hp, hd, hB.unescape_escape]
  dsimp only
  rw [if_pos hl]

/-- C19: different names never collide. -/
theorem C19_injective (S : Siv) (hS : S.WF) (B : Base64) (hB : B.Lawful) (n n' w : Bytes)
    (h : encryptXattrName S B n = .ok w) (h' : encryptXattrName S B n' = .ok w) : n = n' := by
  unfold encryptXattrName at h h'
  obtain ⟨c, v, e, _⟩ := C16_encrypt_rfc5297 S hS n []
  obtain ⟨c', v', e', _⟩ := C16_encrypt_rfc5297 S hS n' []
  rw [e] at h
  rw [e'] at h'
  simp only [bind, Except.bind] at h h'
  rw [← h'] at h
  have h1 := Except.ok.inj h
  have h2 := List.append_cancel_left h1
  have h3 : v ++ c = v' ++ c' := by
    have := congrArg B.unescape h2
    rw [hB.unescape_escape, hB.unescape_escape] at this
    exact Option.some.inj this
  have l1 := (decrypt_encrypt hS n [] c v e).2.1
  have l2 := (decrypt_encrypt hS n' [] c' v' e').2.1
  have ev : v = v' := by rw [← List.take_left (l₁ := v) (l₂ := c), l1, h3, ← l2, List.take_left]
  have ec : c = c' := by rw [← List.drop_left (l₁ := v) (l₂ := c), l1, h3, ← l2, List.drop_left]
  subst ev ec
  exact C16_injective S hS n n' [] _ _ e e'

/-- C19: a stored name is shown as `u` exactly if it has the prefix `user.` and its text unescapes to the
    synthetic IV and ciphertext that this key produces for the (non-empty) name `u`; every other stored name is
    hidden.  Decoding never fails. -/
theorem C19_only_own_names (S : Siv) (hS : S.WF) (B : Base64) (w : Bytes) :
    ∃ r, decryptXattrName S B w = .ok r ∧ ∀ u, r = some u ↔ ∃ c v, userPrefix <+: w ∧
      B.unescape (w.drop 5) = some (v ++ c) ∧ S.encrypt u [] = .ok (c, v) ∧ u ≠ [] :=
  decryptXattrName_total hS B w

/-- A foreign name is hidden. -/
example : decryptXattrName Toy.siv Toy.base64 [117, 115, 101, 114, 46, 97, 97] = .ok none ∧
    decryptXattrName Toy.siv Toy.base64 [115, 101, 99] = .ok none := by decide +kernel

/-- The user names among the stored names `stored`, in order. -/
def visibleNames (S : Siv) (B : Base64) (stored : List Bytes) : List Bytes :=
  stored.filterMap fun n => match decryptXattrName S B n with | .ok r => r | .error _ => none

/-- C19: listing, for answers of any length.  As `C19_listing`, but the length is reported as the `int` that the
    code converts it to: the number of the range of `int` that is congruent to it modulo 2^32.  From 2^31 bytes of
    names on, the answer is negative for half of the lengths and the caller takes it for an error. -/
theorem C19_listing_any (S : Siv) (hS : S.WF) (B : Base64) (stored : List Bytes) (hne : stored ≠ [])
    (hnul : ∀ n ∈ stored, 0 ∉ n) (buf : Bytes) (raw text : Bytes)
    (hraw : raw = stored.flatMap fun n => n ++ [0])
    (htext : text = (visibleNames S B stored).flatMap fun n => n ++ [0]) :
    wrappedListxattr S B raw.length (fun _ => (raw.length, raw)) none 0 =
      .ok ((text.length : Int).bmod (2 ^ 32), none) ∧
    wrappedListxattr S B raw.length (fun _ => (raw.length, raw)) (some buf) buf.length =
      .ok (if buf.length = 0 then ((text.length : Int).bmod (2 ^ 32), some buf)
        else if buf.length < text.length then (-34, some buf)
        else ((text.length : Int).bmod (2 ^ 32), some (text ++ zeros (buf.length - text.length)))) := by
  have hpos : 0 < raw.length := by
    rw [hraw]
    cases stored with
    | nil => exact absurd rfl hne
    | cons n rest => simp
  have hsplit : decryptNames S B (splitNul [] raw) = .ok (visibleNames S B stored) := by
    rw [hraw, splitNul_names stored hnul, decryptNames_spec hS B, List.filterMap_append]
    have : decryptXattrName S B [] = .ok none := rfl
    simp only [List.filterMap_cons, this, List.filterMap_nil, List.append_nil, visibleNames]
    rfl
  have htot : namesTotal (visibleNames S B stored) = text.length := by rw [namesTotal_eq, htext]
  have hint : toInt32 text.length = (text.length : Int).bmod (2 ^ 32) := by
    unfold toInt32
    rw [Int.bmod_def]
    split <;> split <;> omega
  have hraw' : (raw ++ zeros ((raw.length : Int).toNat - raw.length)).take (raw.length : Int).toNat = raw := by
    rw [Int.toNat_natCast, Nat.sub_self]
    simp [zeros]
  unfold wrappedListxattr
  rw [if_neg (by omega), if_neg (by dsimp only; omega)]
  dsimp only
  rw [hraw']
  unfold listNames
  rw [hsplit]
  dsimp only
  rw [htot, hint]
  refine ⟨rfl, ?_⟩
  rw [if_neg (by omega), if_neg (by omega)]
  by_cases h0 : buf.length = 0
  · rw [if_pos h0, if_pos h0]
  · rw [if_neg h0, if_neg h0]
    by_cases h1 : buf.length < text.length
    · rw [if_pos h1, if_pos h1]
      rfl
    · rw [if_neg h1, if_neg h1]
      have := copyNames_spec (visibleNames S B stored) [] buf.length (by rw [← htext]; omega)
      rw [← htext] at this
      simp only [List.nil_append, List.length_nil] at this
      rw [this]

/-- C19: listing.  For stored names without NUL, each followed by a NUL in the answer of the system call:
    without a buffer the exact total length is returned; with a buffer that is too small, `-ERANGE` and the
    buffer is untouched; otherwise the buffer holds exactly the user names, each followed by a NUL, and zeros
    behind them, and the exact total length is returned. -/
theorem C19_listing (S : Siv) (hS : S.WF) (B : Base64) (stored : List Bytes) (hne : stored ≠ [])
    (hnul : ∀ n ∈ stored, 0 ∉ n) (buf : Bytes) (raw text : Bytes)
    (hraw : raw = stored.flatMap fun n => n ++ [0])
    (htext : text = (visibleNames S B stored).flatMap fun n => n ++ [0])
    (hsz : text.length < 2 ^ 31) :
    wrappedListxattr S B raw.length (fun _ => (raw.length, raw)) none 0 = .ok ((text.length : Int), none) ∧
    wrappedListxattr S B raw.length (fun _ => (raw.length, raw)) (some buf) buf.length =
      .ok (if buf.length = 0 then ((text.length : Int), some buf)
        else if buf.length < text.length then (-34, some buf)
        else ((text.length : Int), some (text ++ zeros (buf.length - text.length)))) := by
  have h := C19_listing_any S hS B stored hne hnul buf raw text hraw htext
  have hint : (text.length : Int).bmod (2 ^ 32) = text.length := by
    rw [Int.bmod_def]
    split <;> omega
  rw [hint] at h
  exact h

/-- The hypotheses hold for a foreign name followed by a name of our own, and listing shows the latter. -/
example : ∃ w, encryptXattrName Toy.siv Toy.base64 [97, 98] = .ok w ∧
    (∀ n ∈ [[115, 101, 99], w], (0 : UInt8) ∉ n) ∧
    visibleNames Toy.siv Toy.base64 [[115, 101, 99], w] = [[97, 98]] := by
  obtain ⟨w, h1, h2⟩ := C19_round_trip_partial _ Toy.siv_wf _ Toy.base64_lawful [97, 98] (by simp)
  refine ⟨w, h1, ?_, ?_⟩
  · intro n hn
    simp only [List.mem_cons, List.not_mem_nil, or_false] at hn
    rcases hn with rfl | rfl
    · decide
    · unfold encryptXattrName at h1
      obtain ⟨c, v, e, _⟩ := C16_encrypt_rfc5297 Toy.siv Toy.siv_wf [97, 98] []
      rw [e] at h1
      cases h1
      intro hm
      rcases List.mem_append.mp hm with h | h
      · revert h; decide
      · exact Toy.base64_lawful.no_nul _ h
  · have : decryptXattrName Toy.siv Toy.base64 [115, 101, 99] = .ok none := by decide +kernel
    simp only [visibleNames, List.filterMap_cons, this, h2, List.filterMap_nil]

/-- C19: an error or an empty answer of the system call is passed on and the buffer is untouched. -/
theorem C19_listing_errors (S : Siv) (B : Base64) (probe : Int) (fill : Nat → Int × Bytes) (buffer : Option Bytes)
    (size : Nat) (h : probe ≤ 0 ∨ (fill probe.toNat).1 ≤ 0) :
    ∃ rc, wrappedListxattr S B probe fill buffer size = .ok (rc, buffer) ∧ rc ≤ 0 := by
  unfold wrappedListxattr
  by_cases h1 : probe ≤ 0
  · exact ⟨probe, by rw [if_pos h1], h1⟩
  · rcases h with h | h
    · exact absurd h h1
    · exact ⟨_, by rw [if_neg h1, if_pos h], h⟩

example : wrappedListxattr Toy.siv Toy.base64 (-95) (fun _ => (0, [])) (some [1]) 1 = .ok (-95, some [1]) := by
  decide +kernel

end Securefs.Props

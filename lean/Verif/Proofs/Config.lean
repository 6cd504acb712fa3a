import Verif.Spec.Config
import Verif.Proofs.Wire
import Verif.Proofs.Siv
import Verif.Proofs.Encoding
/-!
# Lemmas about the encryption of the configuration
-/

namespace Securefs

theorem keyChunks_flatten (content : Bytes) (fuel : Nat) : ∀ off, content.length - off < fuel →
    ∃ cs, keyChunks content fuel off = .ok cs ∧ cs.flatten = content.drop off := by
  induction fuel with
  | zero => intro off h; cases h
  | succ fuel ih =>
    intro off h
    unfold keyChunks
    dsimp only
    have hlen : ((content.drop off).take 4096).length = min 4096 (content.length - off) := by rw [List.length_take, List.length_drop]
    split
    · rename_i h0
      refine ⟨[], rfl, ?_⟩
      have : (content.drop off).length = 0 := by rw [List.length_drop]; omega
      rw [List.flatten_nil, List.length_eq_zero_iff.mp this]
    · rename_i h0
      obtain ⟨cs, h1, h2⟩ := ih (off + ((content.drop off).take 4096).length) (by omega)
      refine ⟨_, by rw [h1], ?_⟩
      rw [List.flatten_cons, h2, ← List.drop_drop, List.length_take]
      rcases Nat.le_total 4096 (content.drop off).length with hle | hle
      · rw [Nat.min_eq_left hle, List.take_append_drop]
      · rw [Nat.min_eq_right hle, List.take_of_length_le hle, List.drop_length, List.append_nil]

theorem hmacFile_eq {C : ConfCrypto} (hC : C.Lawful) (base content : Bytes) : hmacFile C base content = .ok (C.hmac base [content]) := by
  obtain ⟨cs, h1, h2⟩ := keyChunks_flatten content (content.length + 1) 0 (by omega)
  unfold hmacFile
  rw [h1]
  dsimp only
  rw [hC.hmac_updates base cs [content] (by rw [h2]; simp)]

theorem deriveKey_eq {C : ConfCrypto} (hC : C.Lawful) {p : EncParams} {a : Argon2Params} (hs : p.salt.length = 32) (ha : p.argon2 = some a)
    (password : Bytes) (key : Option Bytes) :
    deriveKey C p password key = match Spec.wrapKey C a password key p.salt with
      | none => .error .runtime
      | some k => .ok k := by
  unfold deriveKey
  rw [if_neg (by omega)]
  cases key with
  | none => rw [ha]; rfl
  | some content =>
    dsimp only
    rw [hmacFile_eq hC, ha]
    rfl

theorem legacyDeriveKey_eq (C : ConfCrypto) (l : LegacyParams) (password salt : Bytes) :
    legacyDeriveKey C l password salt = match Spec.legacyKdf C l password salt with
      | none => .error .runtime
      | some k => .ok k := by
  have h1 : Spec.ascii "argon2id" = pbkdfArgon2id := by decide +kernel
  have h2 : Spec.ascii "scrypt" = pbkdfScrypt := by decide +kernel
  have h3 : Spec.ascii "pkcs5-pbkdf2-hmac-sha256" = pbkdfPkcs5 := by decide +kernel
  unfold legacyDeriveKey Spec.legacyKdf
  rw [h1, h2, h3]
  rfl

theorem versionHeader_eq {v : Nat} (h : 1 ≤ v ∧ v ≤ 4) : versionHeader v = .ok (Spec.legacyHeader v) := by
  have h1 : Spec.ascii "version=1" = [118, 101, 114, 115, 105, 111, 110, 61, 49] := by decide +kernel
  have h4 : Spec.ascii "version=4" = [118, 101, 114, 115, 105, 111, 110, 61, 52] := by decide +kernel
  unfold versionHeader Spec.legacyHeader
  rw [h1, h4]
  split
  · rw [if_neg (by omega)]
  · rw [if_pos (by omega), if_pos (by omega)]

theorem gcmOpen_full {C : ConfCrypto} (hC : C.Lawful) {key iv header mac ct : Bytes} (hiv : iv.length = 12) (hmac : mac.length = 16) :
    gcmOpen C key iv header mac ct =
      if C.tag key iv header ct = mac then .ok (some (xorbuf ct (C.keystream key iv ct.length))) else .ok none := by
  unfold gcmOpen
  rw [hiv, hmac, hC.iv_ok, hC.mac_ok, if_neg nofun, if_neg nofun, List.take_of_length_le (by rw [hC.tag_length])]

theorem gcmOpen_seal {C : ConfCrypto} (hC : C.Lawful) {key iv header pt : Bytes} (hiv : iv.length = 12) :
    gcmOpen C key iv header (gcmSeal C key iv header pt).2 (gcmSeal C key iv header pt).1 = .ok (some pt) := by
  unfold gcmSeal
  dsimp only
  rw [gcmOpen_full hC hiv (hC.tag_length _ _ _ _), if_pos rfl, xorbuf_length, hC.keystream_length, Nat.min_self, xorbuf_xorbuf _ _ (hC.keystream_length _ _ _).symm]

theorem parseHex_hexify {b s : Bytes} (h : hexify b = .ok s) : parseHex s = .ok b := by
  obtain ⟨s', h1, h2, _, h4⟩ := hexify_ok b
  rw [h] at h1
  injection h1 with h1
  subst h1
  unfold parseHex parseHexInto
  rw [if_neg (by omega), if_neg (by omega), if_neg (by omega)]
  exact h4

theorem legacyTry_eq {C : ConfCrypto} (hC : C.Lawful) {l : LegacyParams} {k master iv ct : Bytes} (h : Spec.LegacyWrapped C l k master iv ct) (k' : Bytes) :
    legacyTry C l k' =
      if C.tag k' iv (Spec.legacyHeader l.version) ct = C.tag k iv (Spec.legacyHeader l.version) ct then
        .ok (some (xorbuf ct (C.keystream k' iv ct.length)))
      else .ok none := by
  unfold legacyTry
  rw [parseHex_hexify h.iv_hex, parseHex_hexify h.mac_hex, parseHex_hexify h.text_hex, versionHeader_eq h.version]
  dsimp only
  rw [gcmOpen_full hC h.iv_length (hC.tag_length _ _ _ _)]

theorem legacyTry_right {C : ConfCrypto} (hC : C.Lawful) {l : LegacyParams} {k master iv ct : Bytes} (h : Spec.LegacyWrapped C l k master iv ct) :
    legacyTry C l k = .ok (some master) := by
  rw [legacyTry_eq hC h, if_pos rfl]
  have ht : ct = xorbuf master (C.keystream k iv master.length) := h.text
  have hl : ct.length = master.length := by rw [ht, xorbuf_length, hC.keystream_length, Nat.min_self]
  rw [hl, ht, xorbuf_xorbuf _ _ (hC.keystream_length _ _ _).symm]

/-- What the function does with the master key. -/
theorem decryptLegacy_of_try {C : ConfCrypto} {l : LegacyParams} {password master : Bytes} {key : Option Bytes} {d : DecParams}
    (h : tryLegacyKey C l password key (legacyTry C l) = .ok (some master)) (hd : Spec.LegacyMeaning l master d) :
    decryptLegacy C l password key = .ok d := by
  unfold decryptLegacy
  rw [h]
  dsimp only
  cases hd with
  | @full _ b i hv hb hi =>
    rw [if_neg hv]
    have h3 : (l.version == 3) = decide (l.version = 3) := rfl
    have h1 : (l.version == 1) = decide (l.version = 1) := rfl
    rw [h1, h3]
    rcases hb with hb | ⟨hb, rfl⟩ <;> rcases hi with hi | ⟨hi, rfl⟩ <;> rw [hb, hi]
  | @lite name content xattr padding b i hv hb hi h1 h2 h3 h4 =>
    rw [if_pos hv]
    have hlite : legacyLite l (name ++ content ++ xattr ++ padding) =
        { nameKey := name, contentKey := content, xattrKey := xattr, paddingKey := padding, longNameThreshold := if l.longNameComponent then some 128 else none } := by
      have e1 : (name ++ content ++ xattr ++ padding).take 32 = name := by
        rw [List.append_assoc, List.append_assoc, List.take_left' h1]
      have e2 : ((name ++ content ++ xattr ++ padding).drop 32).take 32 = content := by
        rw [List.append_assoc, List.append_assoc, List.drop_left' h1, List.take_left' h2]
      have e3 : ((name ++ content ++ xattr ++ padding).drop 64).take 32 = xattr := by
        rw [List.append_assoc, List.drop_left' (by rw [List.length_append]; omega), List.take_left' h3]
      have e4 : (name ++ content ++ xattr ++ padding).drop 96 = padding := by
        rw [List.drop_left' (by rw [List.length_append, List.length_append]; omega)]
      unfold legacyLite
      rw [e1, e2, e3, e4]
      have e5 : (name ++ content ++ xattr ++ padding).length = 96 + padding.length := by
        simp only [List.length_append]; omega
      rw [e5]
      rcases h4 with h4 | rfl
      · rw [if_pos (by omega), List.take_of_length_le (by omega)]
      · rw [if_neg (by decide)]
    have e5 : (name ++ content ++ xattr ++ padding).length = 96 + padding.length := by
      simp only [List.length_append]; omega
    rw [if_neg (by rw [e5]; rintro ⟨a, b⟩; rcases h4 with h4 | rfl
                   · omega
                   · exact a rfl), hlite]
    rcases hb with hb | ⟨hb, rfl⟩ <;> rcases hi with hi | ⟨hi, rfl⟩ <;> rw [hb, hi]

end Securefs

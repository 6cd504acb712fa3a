import Verif.Proofs.Config
import Verif.Proofs.Utf8
import Verif.Props.Encoding
/-!
# C46: Configuration decrypts only with the right password and key file; C61, C62: the two file formats
-/

namespace Securefs.Props

open Spec

/-! ## A small instance for the examples -/

/-- `n` bytes that depend on all of the input. -/
def toyMix (n : Nat) (b : Bytes) : Bytes := (List.range n).map fun i => b.foldl (fun acc x => (acc ^^^ x) * 29 + acc / 8 + UInt8.ofNat i) 7

/-- Library functions for the examples, not secure. -/
def toyConf : ConfCrypto :=
  { argon2 := fun t _ p password salt => if t = 0 ∨ p = 0 then none else some (toyMix 32 (salt ++ password))
    scrypt := fun _ _ _ password salt => some (toyMix 32 (1 :: salt ++ password))
    pbkdf2 := fun _ password salt => some (toyMix 32 (2 :: salt ++ password))
    hmac := fun k u => toyMix 32 (3 :: k ++ u.flatten)
    keystream := fun k iv n => toyMix n (k ++ iv)
    tag := fun k iv h c => toyMix 16 (k ++ iv ++ h ++ c)
    ivOk := fun n => decide (12 ≤ n)
    macOk := fun n => decide (n ≤ 16) }

theorem toyConf_lawful : toyConf.Lawful :=
  ⟨fun _ _ => by simp [toyConf, toyMix], fun k u v h => by simp [toyConf, h], fun _ _ _ => by simp [toyConf, toyMix],
    fun _ _ _ _ => by simp [toyConf, toyMix], rfl, rfl⟩

/-- A volume in the lite format with long names. -/
def toyLiteVolume : DecParams :=
  { size := some { blockSize := 4096, ivSize := 12 }
    format := .lite { nameKey := [1, 2], contentKey := [3, 4], xattrKey := [5], paddingKey := [6], longNameThreshold := some 128, longNameSuffix := [46, 108, 108] } }

theorem toyLiteVolume_ok : toyLiteVolume.Ok := by
  refine ⟨?_, ?_, nofun⟩
  · intro s hs; injection hs with hs; subst hs; exact ⟨by decide, by decide, by decide⟩
  · intro l hl; injection hl with hl; subst hl
    exact ⟨by decide, by decide, by decide, by decide, fun t ht => by injection ht with ht; subst ht; decide, by decide, by decide⟩

/-- A salt and an IV. -/
def toySalt : Bytes := List.replicate 32 9

/-- See `toySalt`. -/
def toyIv : Bytes := List.replicate 12 8

/-! ## Current files -/

theorem params_length {d : DecParams} (hd : d.Ok) : d.serialize.length < 2 ^ 31 - 16 := by
  obtain ⟨h1, h2, h3⟩ := hd
  unfold DecParams.serialize DecParams.fields
  rw [putFields_append, List.length_append]
  have ha : (putFields (sizeField d.size)).length ≤ 60 := by
    cases d.size with
    | none => exact Nat.zero_le _
    | some s =>
      have hx := putField_length_le (1, .len (putFields s.fields))
      have := s.length
      simp only [putFields, sizeField, List.flatMap_cons, List.flatMap_nil, List.append_nil] at hx this ⊢
      omega
  have hb : (putFields (formatField d.format)).length < 2 ^ 30 + 15 := by
    cases hf : d.format with
    | none => exact Nat.lt_of_lt_of_le (Nat.zero_lt_succ 14) (by decide)
    | lite l =>
      have hx := putField_length_le (2, .len (putFields l.fields))
      have := LiteParams.length (h2 l hf)
      simp only [putFields, formatField, List.flatMap_cons, List.flatMap_nil, List.append_nil] at hx this ⊢
      omega
    | full l =>
      have hx := putField_length_le (3, .len (putFields l.fields))
      have := FullParams.length (h3 l hf)
      simp only [putFields, formatField, List.flatMap_cons, List.flatMap_nil, List.append_nil] at hx this ⊢
      omega
  omega

/-- `encrypt` succeeds exactly if Argon2id does, and this is what it writes: the salt, the IV and the Argon2id parameters in the clear, the
    serialized parameters under the key stream, and the full tag. -/
theorem C46_encrypt_exact (C : ConfCrypto) (hC : C.Lawful) (d : DecParams) (argon : Argon2Params) (password : Bytes) (key : Option Bytes)
    (iv salt : Bytes) (hsalt : salt.length = 32) (e : EncParams) :
    encryptParams C d argon password key iv salt = .ok e ↔
      ∃ k, wrapKey C argon password key salt = some k ∧ e.salt = salt ∧ e.iv = iv ∧ e.argon2 = some argon ∧
        e.ciphertext = List.zipWith (· ^^^ ·) d.serialize (C.keystream k iv d.serialize.length) ∧ e.mac = C.tag k iv [] e.ciphertext := by
  unfold encryptParams
  dsimp only
  rw [deriveKey_eq hC hsalt rfl]
  dsimp only
  cases hk : wrapKey C argon password key salt with
  | none => exact ⟨nofun, fun ⟨k, h, _⟩ => by cases h⟩
  | some k =>
    constructor
    · intro h
      injection h with h
      subst h
      exact ⟨k, rfl, rfl, rfl, rfl, rfl, rfl⟩
    · rintro ⟨k', h0, h1, h2, h3, h4, h5⟩
      injection h0 with h0
      subst h0
      obtain ⟨e1, e2, e3, e4, e5⟩ := e
      dsimp only at h1 h2 h3 h4 h5
      subst h1 h2 h3 h4 h5
      rfl

example : ∃ e, encryptParams toyConf toyLiteVolume ⟨30, 16, 4⟩ [112, 119] (some [7, 7]) toyIv toySalt = .ok e ∧ e.mac.length = 16 ∧ e.salt = toySalt :=
  ⟨_, rfl, by decide +kernel, rfl⟩

example : encryptParams toyConf toyLiteVolume ⟨0, 16, 4⟩ [112, 119] (some [7, 7]) toyIv toySalt = .error .runtime := by decide +kernel

/-- The file that was written gives back the parameters with the same password and key file, at the level of bytes.  Partial: the suffix of
    long names has to be UTF-8 (part of `d.Ok`, the rest of which the command line guarantees); `C46_suffix_violated` is the other case. -/
theorem C46_round_trip_partial (C : ConfCrypto) (hC : C.Lawful) (json : Bytes → Option LegacyParams) (d : DecParams) (hd : d.Ok)
    (argon : Argon2Params) (ha : argon.Ok) (password : Bytes) (key : Option Bytes) (iv salt : Bytes) (hiv : iv.length = 12)
    (hsalt : salt.length = 32) (e : EncParams) (he : encryptParams C d argon password key iv salt = .ok e) :
    decryptContent C json e.serialize password key = .ok d := by
  obtain ⟨k, hk, h1, h2, h3, h4, h5⟩ := (C46_encrypt_exact C hC d argon password key iv salt hsalt e).mp he
  have hlen : e.ciphertext.length = d.serialize.length := by
    rw [h4, List.length_zipWith, hC.keystream_length, Nat.min_self]
  have hok : e.Ok := by
    have hl := params_length hd
    refine ⟨by rw [h1, hsalt]; decide, by rw [h2, hiv]; decide, by rw [h5, hC.tag_length]; decide, by rw [hlen]; exact hl, ?_⟩
    intro a hx
    rw [h3] at hx
    injection hx with hx
    subst hx
    exact ha
  unfold decryptContent
  rw [EncParams.parse_serialize hok]
  dsimp only
  unfold decryptParams
  rw [deriveKey_eq hC (by rw [h1]; exact hsalt) h3, h1, hk]
  dsimp only
  have hopen : gcmOpen C k e.iv [] e.mac e.ciphertext = .ok (some d.serialize) := by
    have := gcmOpen_seal hC (key := k) (header := []) (pt := d.serialize) hiv
    unfold gcmSeal at this
    rw [h5, h2, h4]
    exact this
  rw [hopen]
  dsimp only
  rw [DecParams.parse_serialize hd]

example : ∃ e, encryptParams toyConf toyLiteVolume ⟨30, 16, 4⟩ [112, 119] (some [7, 7]) toyIv toySalt = .ok e ∧
    decryptContent toyConf (fun _ => none) e.serialize [112, 119] (some [7, 7]) = .ok toyLiteVolume :=
  ⟨_, rfl, C46_round_trip_partial toyConf toyConf_lawful _ _ toyLiteVolume_ok ⟨30, 16, 4⟩ ⟨by decide, by decide, by decide⟩ _ _ toyIv toySalt (by decide) (by decide) _ rfl⟩

/-- Parsing the fields of a message stops at a suffix that is not UTF-8. -/
theorem putAll_lite_suffix {s : Bytes} (h : utf8Valid s = false) (a : List (Nat × WireVal)) : ∀ p, putAll LiteParams.put p (a ++ [(6, .len s)]) = none := by
  intro p
  rw [putAll_append]
  cases putAll LiteParams.put p a with
  | none => rfl
  | some q => simp [putAll, LiteParams.put, h]

/-- False for a suffix of long names that is not UTF-8: the file is written without an error, and the right credentials do not open
    it any more. -/
theorem C46_suffix_violated (C : ConfCrypto) (hC : C.Lawful) (json : Bytes → Option LegacyParams) (d : DecParams) (l : LiteParams)
    (hl : d.format = .lite l) (hsuffix : utf8Valid l.longNameSuffix = false)
    (hd : ({ d with format := .lite { l with longNameSuffix := [] } } : DecParams).Ok) (hlen : l.longNameSuffix.length < 2 ^ 27)
    (argon : Argon2Params) (ha : argon.Ok) (password : Bytes) (key : Option Bytes) (iv salt : Bytes) (hiv : iv.length = 12)
    (hsalt : salt.length = 32) (k : Bytes) (hk : wrapKey C argon password key salt = some k) :
    ∃ e, encryptParams C d argon password key iv salt = .ok e ∧ decryptContent C json e.serialize password key = .error .runtime := by
  obtain ⟨hd1, hd2, _⟩ := hd
  have hd2 := hd2 _ rfl
  obtain ⟨g1, g2, g3, g4, g5, _, _⟩ := hd2
  dsimp only at hd1 g1 g2 g3 g4 g5
  have hne : l.longNameSuffix ≠ [] := by intro h0; rw [h0] at hsuffix; cases hsuffix
  -- the fields of the message are well formed, but the last one is not text
  have hlf : ∀ f ∈ l.fields, FieldOk f := by
    refine forall_append (forall_append (forall_append (forall_append (forall_append (bytesField_ok (by decide) (by omega))
      (bytesField_ok (by decide) (by omega))) (bytesField_ok (by decide) (by omega))) (bytesField_ok (by decide) (by omega))) ?_)
      (bytesField_ok (by decide) (by omega))
    intro f hf
    cases ht : l.longNameThreshold with
    | none => rw [ht] at hf; cases hf
    | some t =>
      rw [ht] at hf
      rw [List.mem_singleton.mp hf]
      have := g5 t ht
      exact ⟨Nat.succ_pos _, by simp, show t < 2 ^ 64 by omega⟩
  have hll : (putFields l.fields).length < 2 ^ 30 := by
    unfold LiteParams.fields
    rw [putFields_append, putFields_append, putFields_append, putFields_append, putFields_append]
    simp only [List.length_append]
    have := bytesField_length 1 l.nameKey
    have := bytesField_length 2 l.contentKey
    have := bytesField_length 3 l.xattrKey
    have := bytesField_length 4 l.paddingKey
    have := bytesField_length 6 l.longNameSuffix
    have ht : (putFields (thresholdField l.longNameThreshold)).length ≤ 15 := by
      cases l.longNameThreshold with
      | none => exact Nat.zero_le _
      | some t =>
        have := putField_length_le (5, .varint t)
        simpa [putFields, thresholdField] using this
    omega
  have hfields : ∀ f ∈ d.fields, FieldOk f := by
    refine forall_append ?_ ?_
    · intro f hf
      cases hs : d.size with
      | none => rw [hs] at hf; cases hf
      | some s =>
        rw [hs] at hf
        rw [List.mem_singleton.mp hf]
        have := s.length
        exact ⟨Nat.succ_pos _, by simp, show (putFields s.fields).length < _ by omega⟩
    · intro f hf
      rw [hl] at hf
      rw [List.mem_singleton.mp hf]
      exact ⟨Nat.succ_pos _, by simp, show (putFields l.fields).length < _ by omega⟩
  have hparse : DecParams.parse d.serialize = none := by
    unfold DecParams.parse DecParams.serialize
    rw [parseFields_putFields 100 _ hfields]
    dsimp only
    unfold DecParams.fields
    rw [putAll_append, hl]
    cases putAll DecParams.put {} (sizeField d.size) with
    | none => rfl
    | some q =>
      have hz : ∀ p, putAll LiteParams.put p l.fields = none := by
        intro p
        have : l.fields = (bytesField 1 l.nameKey ++ bytesField 2 l.contentKey ++ bytesField 3 l.xattrKey ++ bytesField 4 l.paddingKey ++
            thresholdField l.longNameThreshold) ++ [(6, .len l.longNameSuffix)] := by
          unfold LiteParams.fields
          congr 1
          unfold bytesField
          rw [if_neg hne]
        rw [this]
        exact putAll_lite_suffix hsuffix _ p
      simp only [formatField, putAll, DecParams.put, parseFields_putFields 99 _ hlf, hz]
  have hdl : d.serialize.length < 2 ^ 31 - 16 := by
    unfold DecParams.serialize DecParams.fields
    rw [putFields_append, List.length_append, hl]
    have ha : (putFields (sizeField d.size)).length ≤ 60 := by
      cases d.size with
      | none => exact Nat.zero_le _
      | some s =>
        have hx := putField_length_le (1, .len (putFields s.fields))
        have := s.length
        simp only [putFields, sizeField, List.flatMap_cons, List.flatMap_nil, List.append_nil] at hx this ⊢
        omega
    have hx := putField_length_le (2, .len (putFields l.fields))
    simp only [putFields, formatField, List.flatMap_cons, List.flatMap_nil, List.append_nil] at hx hll ha ⊢
    omega
  generalize hct : List.zipWith (· ^^^ ·) d.serialize (C.keystream k iv d.serialize.length) = ct
  refine ⟨⟨salt, iv, C.tag k iv [] ct, ct, some argon⟩,
    (C46_encrypt_exact C hC d argon password key iv salt hsalt _).mpr ⟨k, hk, rfl, rfl, rfl, hct.symm, rfl⟩, ?_⟩
  have hlen : ct.length = d.serialize.length := by
    rw [← hct, List.length_zipWith, hC.keystream_length, Nat.min_self]
  have hok : (EncParams.mk salt iv (C.tag k iv [] ct) ct (some argon)).Ok := by
    refine ⟨by show salt.length < _; rw [hsalt]; decide, by show iv.length < _; rw [hiv]; decide, by show (C.tag _ _ _ _).length < _; rw [hC.tag_length]; decide,
      by show ct.length < _; rw [hlen]; exact hdl, ?_⟩
    intro a hx
    injection hx with hx
    subst hx
    exact ha
  unfold decryptContent
  rw [EncParams.parse_serialize hok]
  dsimp only
  unfold decryptParams
  rw [deriveKey_eq hC hsalt rfl, hk]
  dsimp only
  have hopen : gcmOpen C k iv [] (C.tag k iv [] ct) ct = .ok (some d.serialize) := by
    have := gcmOpen_seal hC (key := k) (header := []) (pt := d.serialize) hiv
    unfold gcmSeal at this
    rw [← hct]
    exact this
  rw [hopen]
  dsimp only
  rw [hparse]

example : ∃ e, encryptParams toyConf { toyLiteVolume with format := .lite { nameKey := [1], longNameThreshold := some 128, longNameSuffix := [46, 0xFF] } }
      ⟨30, 16, 4⟩ [112, 119] none toyIv toySalt = .ok e ∧ decryptContent toyConf (fun _ => none) e.serialize [112, 119] none = .error .runtime :=
  C46_suffix_violated toyConf toyConf_lawful _ _ _ rfl (by decide)
    ⟨fun s hs => by injection hs with hs; subst hs; exact ⟨by decide, by decide, by decide⟩,
      fun l hl => by
        injection hl with hl; subst hl
        exact ⟨by decide, by decide, by decide, by decide, fun t ht => by injection ht with ht; subst ht; decide, by decide, by decide⟩, nofun⟩
    (by decide) ⟨30, 16, 4⟩ ⟨by decide, by decide, by decide⟩ _ _ _ _ (by decide) (by decide) _ rfl

/-- If a file that was written opens with other credentials, then two different inputs of HMAC or Argon2id gave the same key, or two keys gave
    the same tag for the ciphertext. -/
theorem C46_wrong_credentials (C : ConfCrypto) (hC : C.Lawful) (d : DecParams) (argon : Argon2Params) (password : Bytes) (key : Option Bytes)
    (iv salt : Bytes) (hiv : iv.length = 12) (hsalt : salt.length = 32) (e : EncParams)
    (he : encryptParams C d argon password key iv salt = .ok e) (password' : Bytes) (key' : Option Bytes)
    (hne : (password, key) ≠ (password', key')) (d' : DecParams) (hd : decryptParams C e password' key' = .ok d') :
    KeyCollision C argon salt (password, key) (password', key') ∨
      ∃ k k', wrapKey C argon password key salt = some k ∧ wrapKey C argon password' key' salt = some k' ∧ TagCollision C iv [] e.ciphertext k k' := by
  obtain ⟨k, hk, h1, h2, h3, h4, h5⟩ := (C46_encrypt_exact C hC d argon password key iv salt hsalt e).mp he
  unfold decryptParams at hd
  rw [deriveKey_eq hC (by rw [h1]; exact hsalt) h3, h1] at hd
  cases hk' : wrapKey C argon password' key' salt with
  | none => rw [hk'] at hd; cases hd
  | some k' =>
    rw [hk'] at hd
    dsimp only at hd
    rw [h2, gcmOpen_full hC hiv (by rw [h5]; exact hC.tag_length _ _ _ _), h5] at hd
    by_cases htag : C.tag k' iv [] e.ciphertext = C.tag k iv [] e.ciphertext
    · by_cases hkk : k = k'
      · subst hkk
        left
        by_cases hin : (password, effectiveSalt C salt key) = (password', effectiveSalt C salt key')
        · injection hin with hp hs
          refine .hmac ?_ hs
          rintro rfl
          exact hne (by rw [hp])
        · exact .argon hin hk hk'
      · exact .inr ⟨k, k', hk, rfl, hkk, htag.symm⟩
    · rw [if_neg htag] at hd
      cases hd

/-- A key derivation that ignores the password has collisions, and the file opens with any password. -/
example : ({ toyConf with argon2 := fun _ _ _ _ salt => some salt } : ConfCrypto).Lawful ∧
    ∃ e, encryptParams { toyConf with argon2 := fun _ _ _ _ salt => some salt } toyLiteVolume ⟨30, 16, 4⟩ [1] none toyIv toySalt = .ok e ∧
      decryptParams { toyConf with argon2 := fun _ _ _ _ salt => some salt } e [2] none = .ok toyLiteVolume :=
  ⟨⟨toyConf_lawful.1, toyConf_lawful.2, toyConf_lawful.3, toyConf_lawful.4, rfl, rfl⟩, _, rfl, by decide +kernel⟩

/-- Otherwise the error says that the credentials are wrong. -/
theorem C46_wrong_credentials_error (C : ConfCrypto) (hC : C.Lawful) (d : DecParams) (argon : Argon2Params) (password : Bytes) (key : Option Bytes)
    (iv salt : Bytes) (hiv : iv.length = 12) (hsalt : salt.length = 32) (e : EncParams)
    (he : encryptParams C d argon password key iv salt = .ok e) (password' : Bytes) (key' : Option Bytes) (k' : Bytes)
    (hk' : wrapKey C argon password' key' salt = some k') (hno : C.tag k' iv [] e.ciphertext ≠ e.mac) :
    decryptParams C e password' key' = .error .credentials := by
  obtain ⟨k, hk, h1, h2, h3, h4, h5⟩ := (C46_encrypt_exact C hC d argon password key iv salt hsalt e).mp he
  unfold decryptParams
  rw [deriveKey_eq hC (by rw [h1]; exact hsalt) h3, h1, hk', h2]
  dsimp only
  rw [gcmOpen_full hC hiv (by rw [h5]; exact hC.tag_length _ _ _ _), if_neg hno]

example : ∃ e, encryptParams toyConf toyLiteVolume ⟨30, 16, 4⟩ [112, 119] none toyIv toySalt = .ok e ∧
    decryptParams toyConf e [112, 120] none = .error .credentials ∧ decryptParams toyConf e [112, 119] (some []) = .error .credentials :=
  ⟨_, rfl, by decide +kernel, by decide +kernel⟩

/-- False for files that were changed: the length of the MAC is taken from the file.  If the library accepts an empty one (Crypto++ does), no
    credentials are ever found to be wrong, and with the right ones every change `x` of the ciphertext goes through to the parameters. -/
theorem C46_empty_mac_violated (C : ConfCrypto) (hC : C.Lawful) (hmac : C.macOk 0 = true) (d : DecParams) (argon : Argon2Params) (password : Bytes)
    (key : Option Bytes) (iv salt : Bytes) (hiv : iv.length = 12) (hsalt : salt.length = 32) (e : EncParams)
    (he : encryptParams C d argon password key iv salt = .ok e) :
    (∀ password' key' ciphertext, decryptParams C { e with mac := [], ciphertext := ciphertext } password' key' ≠ .error .credentials) ∧
      ∀ x : Bytes, x.length = d.serialize.length → ∀ d', DecParams.parse (xorbuf d.serialize x) = some d' →
        decryptParams C { e with mac := [], ciphertext := xorbuf e.ciphertext x } password key = .ok d' := by
  obtain ⟨k, hk, h1, h2, h3, h4, h5⟩ := (C46_encrypt_exact C hC d argon password key iv salt hsalt e).mp he
  have hopen : ∀ k ct, gcmOpen C k iv [] [] ct = .ok (some (xorbuf ct (C.keystream k iv ct.length))) := by
    intro k ct
    unfold gcmOpen
    rw [hiv, hC.iv_ok, if_neg nofun]
    show (if C.macOk 0 = false then _ else _) = _
    rw [hmac, if_neg nofun]
    exact if_pos rfl
  constructor
  · intro password' key' ct
    unfold decryptParams
    dsimp only
    rw [deriveKey_eq hC (p := ⟨e.salt, e.iv, [], ct, e.argon2⟩) (by show e.salt.length = 32; rw [h1]; exact hsalt) h3]
    dsimp only
    cases wrapKey C argon password' key' e.salt with
    | none => nofun
    | some k' =>
      dsimp only
      rw [h2, hopen]
      dsimp only
      cases DecParams.parse (xorbuf ct (C.keystream k' iv ct.length)) <;> nofun
  · intro x hx d' hd'
    unfold decryptParams
    dsimp only
    rw [deriveKey_eq hC (p := ⟨e.salt, e.iv, [], xorbuf e.ciphertext x, e.argon2⟩) (by show e.salt.length = 32; rw [h1]; exact hsalt) h3]
    dsimp only
    rw [h1, hk]
    dsimp only
    rw [h2, hopen]
    dsimp only
    have hl : (xorbuf e.ciphertext x).length = d.serialize.length := by
      rw [xorbuf_length, h4, List.length_zipWith, hC.keystream_length, Nat.min_self, hx, Nat.min_self]
    have hxor : xorbuf (xorbuf e.ciphertext x) (C.keystream k iv (xorbuf e.ciphertext x).length) = xorbuf d.serialize x := by
      rw [hl, h4]
      have hks := hC.keystream_length k iv d.serialize.length
      generalize C.keystream k iv d.serialize.length = ks at hks
      show xorbuf (xorbuf (xorbuf d.serialize ks) x) ks = _
      refine List.ext_getElem ?_ ?_
      · simp only [xorbuf_length]; omega
      · intro i h1 h2
        simp only [xorbuf, List.getElem_zipWith]
        rw [UInt8.xor_assoc, UInt8.xor_comm (x[i]'_), ← UInt8.xor_assoc, UInt8.xor_assoc (d.serialize[i]'_), UInt8.xor_self, UInt8.xor_zero]
    rw [hxor, hd']

/-! ## Legacy files -/

/-- The attacker changes the last byte of the suffix without knowing anything. -/
example : ∃ e, encryptParams toyConf toyLiteVolume ⟨30, 16, 4⟩ [112, 119] none toyIv toySalt = .ok e ∧
    decryptParams toyConf { e with mac := [], ciphertext := xorbuf e.ciphertext (zeros (e.ciphertext.length - 1) ++ [1]) } [112, 119] none =
      .ok { toyLiteVolume with format := .lite { nameKey := [1, 2], contentKey := [3, 4], xattrKey := [5], paddingKey := [6], longNameThreshold := some 128, longNameSuffix := [46, 108, 109] } } :=
  ⟨_, rfl, by decide +kernel⟩

/-- The keys that are tried. -/
theorem tryLegacy_spec {C : ConfCrypto} (hC : C.Lawful) {l : LegacyParams} {salt : Bytes} (hsalt : hexify salt = .ok l.salt) (password : Bytes)
    (key : Option Bytes) (t : Bytes → Res (Option Bytes)) (m : Bytes) (h : tryLegacyKey C l password key t = .ok (some m)) :
    ∃ k, LegacyKey C l salt password key k ∧ t k = .ok (some m) := by
  unfold tryLegacyKey at h
  rw [parseHex_hexify hsalt] at h
  dsimp only at h
  cases key with
  | none =>
    dsimp only at h
    rw [legacyDeriveKey_eq] at h
    cases hk : legacyKdf C l password salt with
    | none => rw [hk] at h; cases h
    | some k => rw [hk] at h; exact ⟨k, .plain hk, h⟩
  | some content =>
    dsimp only at h
    rw [hmacFile_eq hC] at h
    dsimp only at h
    rw [legacyDeriveKey_eq] at h
    cases hk : legacyKdf C l password (C.hmac salt [content]) with
    | none => rw [hk] at h; cases h
    | some k =>
      rw [hk] at h
      dsimp only at h
      cases ht : t k with
      | error e => rw [ht] at h; cases h
      | ok o =>
        rw [ht] at h
        cases o with
        | some m' =>
          dsimp only at h
          exact ⟨k, .salted hk, ht.trans h⟩
        | none =>
          dsimp only at h
          rw [legacyDeriveKey_eq] at h
          cases hk2 : legacyKdf C l password salt with
          | none => rw [hk2] at h; cases h
          | some k2 =>
            rw [hk2] at h
            dsimp only at h
            rw [hmacFile_eq hC] at h
            exact ⟨_, .mixed hk2, h⟩

/-- A legacy file gives its parameters with the same password and key file, whichever of the two ways was used to mix in the key file; unless
    the way that was not used gives another key with the same tag.  Argon2id, scrypt or PBKDF2 has to accept its parameters. -/
theorem C46_legacy_round_trip (C : ConfCrypto) (hC : C.Lawful) (l : LegacyParams) (salt password : Bytes) (key : Option Bytes)
    (hsalt : hexify salt = .ok l.salt) (k master iv ciphertext : Bytes) (hk : LegacyKey C l salt password key k)
    (hfirst : ∀ content, key = some content → ∃ k1, legacyKdf C l password (C.hmac salt [content]) = some k1)
    (hw : LegacyWrapped C l k master iv ciphertext) (d : DecParams) (hd : LegacyMeaning l master d) :
    decryptLegacy C l password key = .ok d ∨
      ∃ k1, LegacyKey C l salt password key k1 ∧ TagCollision C iv (legacyHeader l.version) ciphertext k k1 := by
  cases hk with
  | plain hk =>
    left
    refine decryptLegacy_of_try ?_ hd
    unfold tryLegacyKey
    rw [parseHex_hexify hsalt]
    dsimp only
    rw [legacyDeriveKey_eq, hk]
    exact legacyTry_right hC hw
  | @salted content _ hk =>
    left
    refine decryptLegacy_of_try ?_ hd
    unfold tryLegacyKey
    rw [parseHex_hexify hsalt]
    dsimp only
    rw [hmacFile_eq hC]
    dsimp only
    rw [legacyDeriveKey_eq, hk]
    dsimp only
    rw [legacyTry_right hC hw]
  | @mixed content k2 hk =>
    obtain ⟨k1, hk1⟩ := hfirst content rfl
    have hgo : ∀ o, legacyTry C l k1 = .ok o → (o = none ∨ o = some master) → decryptLegacy C l password (some content) = .ok d := by
      intro o ho hc
      refine decryptLegacy_of_try ?_ hd
      unfold tryLegacyKey
      rw [parseHex_hexify hsalt]
      dsimp only
      rw [hmacFile_eq hC]
      dsimp only
      rw [legacyDeriveKey_eq, hk1]
      dsimp only
      rw [ho]
      rcases hc with rfl | rfl
      · dsimp only
        rw [legacyDeriveKey_eq, hk]
        dsimp only
        rw [hmacFile_eq hC]
        exact legacyTry_right hC hw
      · rfl
    by_cases htag : C.tag k1 iv (legacyHeader l.version) ciphertext = C.tag (C.hmac k2 [content]) iv (legacyHeader l.version) ciphertext
    · by_cases hkk : C.hmac k2 [content] = k1
      · left
        refine hgo (some master) ?_ (.inr rfl)
        rw [← hkk]
        exact legacyTry_right hC hw
      · exact .inr ⟨k1, .salted hk1, hkk, htag.symm⟩
    · left
      refine hgo none ?_ (.inl rfl)
      rw [legacyTry_eq hC hw, if_neg htag]

/-- A legacy file of the full format, wrapped with a key into which the key file `[7, 7]` was mixed last. -/
def toyLegacyKey : Bytes := toyConf.hmac (toyMix 32 (2 :: toySalt ++ [112, 119])) [[7, 7]]

/-- See `toyLegacyKey`. -/
def toyLegacyText : Bytes := List.zipWith (· ^^^ ·) [1, 2, 3] (toyConf.keystream toyLegacyKey toyIv 3)

/-- See `toyLegacyKey`. -/
def toyHex (b : Bytes) : Bytes := b.flatMap fun x => [hexDigit (x.toNat / 16), hexDigit (x.toNat % 16)]

/-- See `toyLegacyKey`. -/
def toyLegacy : LegacyParams :=
  { version := 3, salt := toyHex toySalt, iv := toyHex toyIv, iterations := 5, ciphertext := toyHex toyLegacyText
    mac := toyHex (toyConf.tag toyLegacyKey toyIv (legacyHeader 3) toyLegacyText) }

theorem toyHex_eq (b : Bytes) : hexify b = .ok (toyHex b) := C14_hexify_exact b

theorem toyLegacy_wrapped : LegacyWrapped toyConf toyLegacy toyLegacyKey [1, 2, 3] toyIv toyLegacyText :=
  { version := by decide
    iv_length := by decide
    iv_hex := toyHex_eq toyIv
    text := rfl
    text_hex := toyHex_eq toyLegacyText
    mac_hex := toyHex_eq (toyConf.tag toyLegacyKey toyIv (legacyHeader 3) toyLegacyText) }

example : ∃ d, LegacyMeaning toyLegacy [1, 2, 3] d ∧ decryptLegacy toyConf toyLegacy [112, 119] (some [7, 7]) = .ok d ∧
    LegacyKey toyConf toyLegacy toySalt [112, 119] (some [7, 7]) toyLegacyKey :=
  ⟨_, .full (b := 4096) (i := 32) (by decide) (.inr ⟨rfl, rfl⟩) (.inr ⟨rfl, rfl⟩), by decide +kernel, .mixed (by decide +kernel : legacyKdf toyConf toyLegacy [112, 119] toySalt = some (toyMix 32 (2 :: toySalt ++ [112, 119])))⟩

/-- If a legacy file opens with some credentials, they give the key it was wrapped with, or another key with the same tag. -/
theorem C46_legacy_wrong_credentials (C : ConfCrypto) (hC : C.Lawful) (l : LegacyParams) (salt : Bytes) (hsalt : hexify salt = .ok l.salt)
    (k master iv ciphertext : Bytes) (hw : LegacyWrapped C l k master iv ciphertext) (password' : Bytes) (key' : Option Bytes) (d' : DecParams)
    (hd : decryptLegacy C l password' key' = .ok d') :
    ∃ k', LegacyKey C l salt password' key' k' ∧ (k' = k ∨ TagCollision C iv (legacyHeader l.version) ciphertext k k') := by
  unfold decryptLegacy at hd
  dsimp only at hd
  cases ht : tryLegacyKey C l password' key' (legacyTry C l) with
  | error e => rw [ht] at hd; cases hd
  | ok o =>
    cases o with
    | none => rw [ht] at hd; cases hd
    | some m =>
      obtain ⟨k', hk', hm⟩ := tryLegacy_spec hC hsalt password' key' _ m ht
      refine ⟨k', hk', ?_⟩
      rw [legacyTry_eq hC hw] at hm
      split at hm
      · rename_i htag
        by_cases hkk : k' = k
        · exact .inl hkk
        · exact .inr ⟨fun h => hkk h.symm, htag.symm⟩
      · cases hm

/-! ## The two file formats -/

example : decryptLegacy toyConf toyLegacy [112, 119] none = .error .credentials ∧ decryptLegacy toyConf toyLegacy [112, 118] (some [7, 7]) = .error .credentials ∧
    decryptLegacy toyConf toyLegacy [112, 119] (some [7, 7]) =
      .ok { size := some { blockSize := 4096, ivSize := 32 }, format := .full { masterKey := [1, 2, 3], storeTime := true } } :=
  ⟨by decide +kernel, by decide +kernel, by decide +kernel⟩

/-- C61: A legacy file, which is JSON in ASCII characters and starts with a brace, is read as JSON: no such text without `|` (which occurs
    neither in hexadecimal nor in the names) is a message of the current format. -/
theorem C61_json_not_message (C : ConfCrypto) (json : Bytes → Option LegacyParams) (text : Bytes) (hascii : ∀ b ∈ text, b.toNat < 128)
    (hbar : UInt8.ofNat '|'.toNat ∉ text) (password : Bytes) (key : Option Bytes) :
    decryptContent C json (UInt8.ofNat '{'.toNat :: text) password key =
      match json (UInt8.ofNat '{'.toNat :: text) with
      | none => .error .runtime
      | some l => decryptLegacy C l password key := by
  have hp : EncParams.parse (UInt8.ofNat '{'.toNat :: text) = none := by
    unfold EncParams.parse
    rw [show UInt8.ofNat '{'.toNat = 0x7B by decide, brace_not_message text hascii (by rw [show (0x7C : UInt8) = UInt8.ofNat '|'.toNat by decide]; exact hbar)]
  unfold decryptContent
  rw [hp]
  cases json (UInt8.ofNat '{'.toNat :: text) <;> rfl

example : EncParams.parse (ascii "{\"version\": 4, \"salt\": \"00ff\"}") = none := by decide +kernel

/-- With `|` and other bytes, text that starts with a brace can be a message. -/
example : EncParams.parse (ascii "{|") = some {} := by decide +kernel

/-- C61: A file of the current format is never given to the JSON parser. -/
theorem C61_message_not_json (C : ConfCrypto) (json json' : Bytes → Option LegacyParams) (e : EncParams) (he : e.Ok) (password : Bytes)
    (key : Option Bytes) : decryptContent C json e.serialize password key = decryptContent C json' e.serialize password key := by
  unfold decryptContent
  rw [EncParams.parse_serialize he]

example : (EncParams.mk toySalt toyIv [1] [2] (some ⟨30, 16, 4⟩)).Ok :=
  ⟨by decide, by decide, by decide, by decide, fun a ha => by injection ha with ha; subst ha; exact ⟨by decide, by decide, by decide⟩⟩

/-- C62: The encrypted configuration is parsed as it was serialized. -/
theorem C62_encrypted (e : EncParams) (he : e.Ok) : EncParams.parse e.serialize = some e := EncParams.parse_serialize he

example : EncParams.parse (EncParams.mk [1, 2] [3] [4] [5, 6] (some ⟨30, 0, 4⟩)).serialize = some ⟨[1, 2], [3], [4], [5, 6], some ⟨30, 0, 4⟩⟩ := by decide +kernel

/-- C62: The parameters are parsed as they were serialized, with the presence of the optional ones.  Partial: the suffix of long names has to be
    UTF-8. -/
theorem C62_parameters_partial (d : DecParams) (hd : d.Ok) : DecParams.parse d.serialize = some d := DecParams.parse_serialize hd

example : toyLiteVolume.Ok ∧ toyLiteVolume.serialize = [10, 5, 8, 128, 32, 16, 12, 18, 22, 10, 2, 1, 2, 18, 2, 3, 4, 26, 1, 5, 34, 1, 6, 40, 128, 1, 50, 3, 46, 108, 108] :=
  ⟨toyLiteVolume_ok, by decide +kernel⟩

/-- C62: What the check of the suffix accepts is the UTF-8 of RFC 3629: sequences of characters in their shortest form, without surrogates and
    nothing beyond 0x10ffff. -/
theorem C62_text (b : Bytes) : utf8Valid b = true ↔ IsUtf8 b := utf8Valid_iff b

/-- `aä€😀` is text; an overlong slash, a surrogate and 0x110000 are not. -/
example : IsUtf8 ([0x61, 0xE4, 0x20AC, 0x1F600].flatMap utf8Encode) ∧ ¬ IsUtf8 [0xC0, 0xAF] ∧ ¬ IsUtf8 [0xED, 0xA0, 0x80] ∧
    ¬ IsUtf8 [0xF4, 0x90, 0x80, 0x80] := by
  refine ⟨⟨_, ?_, rfl⟩, ?_, ?_, ?_⟩
  · unfold IsChar; decide
  all_goals rw [← C62_text]; decide +kernel

end Securefs.Props

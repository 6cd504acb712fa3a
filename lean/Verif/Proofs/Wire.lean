import Verif.Model.Wire
/-!
# Lemmas about the wire format
-/

namespace Securefs

/-! ## Numbers -/

theorem getVarint_putVarint (fuel : Nat) : ∀ (n : Nat) (rest : Bytes), n < 128 ^ fuel → 0 < fuel →
    getVarint fuel (putVarint fuel n ++ rest) = some (n, rest) := by
  induction fuel with
  | zero => intro n rest _ h; cases h
  | succ fuel ih =>
    intro n rest hn _
    unfold putVarint
    by_cases h : n < 128
    · rw [if_pos h]
      show getVarint (fuel + 1) (UInt8.ofNat n :: rest) = _
      have hb : (UInt8.ofNat n).toNat = n := by rw [UInt8.toNat_ofNat']; omega
      unfold getVarint
      rw [hb, if_pos h]
    · rw [if_neg h]
      show getVarint (fuel + 1) (UInt8.ofNat (n % 128 + 128) :: (putVarint fuel (n / 128) ++ rest)) = _
      have hb : (UInt8.ofNat (n % 128 + 128)).toNat = n % 128 + 128 := by rw [UInt8.toNat_ofNat']; omega
      have hpos : 0 < fuel := by
        rcases Nat.eq_zero_or_pos fuel with h0 | h0
        · subst h0; rw [Nat.zero_add, Nat.pow_one] at hn; exact absurd hn h
        · exact h0
      unfold getVarint
      rw [hb, if_neg (by omega), ih (n / 128) rest (by rw [Nat.pow_succ] at hn; omega) hpos]
      dsimp only
      congr 2
      omega

theorem putVarint_ne_nil (fuel n : Nat) (h : 0 < fuel) : putVarint fuel n ≠ [] := by
  cases fuel with
  | zero => cases h
  | succ fuel => unfold putVarint; split <;> exact nofun

theorem getVarint_suffix (digits : Nat) : ∀ {bs : Bytes} {n : Nat} {r : Bytes}, getVarint digits bs = some (n, r) → ∃ a, a ≠ [] ∧ bs = a ++ r := by
  induction digits with
  | zero => intro bs n r h; cases bs <;> cases h
  | succ digits ih =>
    intro bs n r h
    cases bs with
    | nil => cases h
    | cons b rest =>
      unfold getVarint at h
      split at h
      · injection h with h
        injection h with h1 h2
        subst h2
        exact ⟨[b], nofun, rfl⟩
      · cases hg : getVarint digits rest with
        | none => rw [hg] at h; cases h
        | some x =>
          obtain ⟨m, r'⟩ := x
          rw [hg] at h
          injection h with h
          injection h with h1 h2
          subst h2
          obtain ⟨a, _, rfl⟩ := ih hg
          exact ⟨b :: a, nofun, rfl⟩

theorem getBytes_suffix {n : Nat} {bs x r : Bytes} (h : getBytes n bs = some (x, r)) : bs = x ++ r := by
  unfold getBytes at h
  split at h
  · injection h with h
    injection h with h1 h2
    rw [← h1, ← h2, List.take_append_drop]
  · cases h

theorem getBytes_append (x r : Bytes) : getBytes x.length (x ++ r) = some (x, r) := by
  unfold getBytes
  rw [if_pos (by simp), List.take_left, List.drop_left]

/-! ## Fields -/

/-- A field that the serializer of the messages writes. -/
def FieldOk (f : Nat × WireVal) : Prop :=
  0 < f.1 ∧ f.1 < 2 ^ 29 ∧
    match f.2 with
    | .varint n => n < 2 ^ 64
    | .len b => b.length < 2 ^ 31 - 16
    | _ => False

theorem getFields_putField (fuel depth : Nat) (f : Nat × WireVal) (hf : FieldOk f) (rest : Bytes) :
    getFields (fuel + 1) depth none (putField f ++ rest) =
      match getFields fuel depth none rest with
      | none => none
      | some (fs, r) => some (f :: fs, r) := by
  obtain ⟨num, v⟩ := f
  obtain ⟨h0, h29, hv⟩ := hf
  dsimp only at h0 h29 hv
  have h128 : (128 : Nat) ^ 5 = 2 ^ 35 := by decide
  cases v with
  | varint n =>
    dsimp only at hv
    show getFields (fuel + 1) depth none (putVarint 5 (num * 8) ++ putVarint 10 n ++ rest) = _
    rw [List.append_assoc]
    have htag := getVarint_putVarint 5 (num * 8) (putVarint 10 n ++ rest) (by omega) (by decide)
    have hn := getVarint_putVarint 10 n rest (by have : (128 : Nat) ^ 10 = 2 ^ 70 := by decide
                                                 omega) (by decide)
    generalize hbs : putVarint 5 (num * 8) ++ (putVarint 10 n ++ rest) = bs at htag ⊢
    cases bs with
    | nil => exact absurd (List.append_eq_nil_iff.mp hbs).1 (putVarint_ne_nil 5 _ (by decide))
    | cons b bs =>
      rw [getFields]
      rw [htag]
      dsimp only
      rw [show num * 8 % 2 ^ 32 / 8 = num by omega, if_neg (by omega), show num * 8 % 8 = 0 by omega]
      rw [hn]
      dsimp only
      rw [Nat.mod_eq_of_lt hv]
      rfl
  | len x =>
    dsimp only at hv
    show getFields (fuel + 1) depth none (putVarint 5 (num * 8 + 2) ++ putVarint 5 x.length ++ x ++ rest) = _
    rw [List.append_assoc, List.append_assoc]
    have htag := getVarint_putVarint 5 (num * 8 + 2) (putVarint 5 x.length ++ (x ++ rest)) (by omega) (by decide)
    have hn := getVarint_putVarint 5 x.length (x ++ rest) (by omega) (by decide)
    generalize hbs : putVarint 5 (num * 8 + 2) ++ (putVarint 5 x.length ++ (x ++ rest)) = bs at htag ⊢
    cases bs with
    | nil => exact absurd (List.append_eq_nil_iff.mp hbs).1 (putVarint_ne_nil 5 _ (by decide))
    | cons b bs =>
      rw [getFields]
      rw [htag]
      dsimp only
      rw [show (num * 8 + 2) % 2 ^ 32 / 8 = num by omega, if_neg (by omega), show (num * 8 + 2) % 8 = 2 by omega]
      rw [hn]
      dsimp only
      rw [if_pos hv, getBytes_append]
      rfl
  | i64 b => exact hv.elim
  | group => exact hv.elim
  | i32 b => exact hv.elim

theorem getFields_putFields (depth : Nat) (fs : List (Nat × WireVal)) : ∀ fuel, fs.length < fuel → (∀ f ∈ fs, FieldOk f) →
    getFields fuel depth none (putFields fs) = some (fs, []) := by
  induction fs with
  | nil =>
    intro fuel h _
    cases fuel with
    | zero => cases h
    | succ fuel => rfl
  | cons f rest ih =>
    intro fuel h hf
    cases fuel with
    | zero => cases h
    | succ fuel =>
      show getFields (fuel + 1) depth none (putField f ++ putFields rest) = _
      rw [getFields_putField fuel depth f (hf f List.mem_cons_self),
        ih fuel (Nat.lt_of_succ_lt_succ h) fun x hx => hf x (List.mem_cons_of_mem _ hx)]

theorem putField_length (f : Nat × WireVal) : 0 < (putField f).length := by
  have : ∀ n, 0 < (putVarint 5 n).length := fun n => List.length_pos_iff.mpr (putVarint_ne_nil 5 n (by decide))
  unfold putField
  split <;> simp only [List.length_append]
  · have := this (f.1 * 8); omega
  · have := this (f.1 * 8 + 1); omega
  · have := this (f.1 * 8 + 2); omega
  · have := this (f.1 * 8 + 3); omega
  · have := this (f.1 * 8 + 5); omega

theorem putFields_length (fs : List (Nat × WireVal)) : fs.length ≤ (putFields fs).length := by
  induction fs with
  | nil => exact Nat.le_refl _
  | cons f rest ih =>
    show rest.length + 1 ≤ (putField f ++ putFields rest).length
    rw [List.length_append]
    have := putField_length f
    omega

/-- What is serialized is parsed. -/
theorem parseFields_putFields (depth : Nat) (fs : List (Nat × WireVal)) (hf : ∀ f ∈ fs, FieldOk f) :
    parseFields depth (putFields fs) = some fs := by
  unfold parseFields
  rw [getFields_putFields depth fs _ (Nat.lt_succ_of_le (putFields_length fs)) hf]

/-! ## Fuel -/

/-- What is left is an end of the input, and shorter inside a group. -/
theorem getFields_suffix (fuel : Nat) : ∀ {depth : Nat} {group : Option Nat} {bs : Bytes} {fs : List (Nat × WireVal)} {r : Bytes},
    getFields fuel depth group bs = some (fs, r) → ∃ a, bs = a ++ r := by
  induction fuel with
  | zero => intro depth group bs fs r h; cases h
  | succ fuel ih =>
    intro depth group bs fs r h
    cases bs with
    | nil =>
      cases group with
      | none => injection h with h; injection h with _ h; subst h; exact ⟨[], rfl⟩
      | some g => cases h
    | cons b bs =>
      rw [getFields] at h
      cases htag : getVarint 5 (b :: bs) with
      | none => rw [htag] at h; cases h
      | some x =>
        obtain ⟨tag, rest⟩ := x
        obtain ⟨a, _, ha⟩ := getVarint_suffix 5 htag
        rw [htag] at h
        dsimp only at h
        have hgo : ∀ (v : WireVal) (r' : Bytes) , (∃ c, rest = c ++ r') →
            (match getFields fuel depth group r' with
              | none => none
              | some (fs, r) => some ((tag % 2 ^ 32 / 8, v) :: fs, r)) = some (fs, r) → ∃ c, b :: bs = c ++ r := by
          rintro v r' ⟨c, hc⟩ hx
          cases hg : getFields fuel depth group r' with
          | none => rw [hg] at hx; cases hx
          | some y =>
            obtain ⟨fs', r''⟩ := y
            rw [hg] at hx
            injection hx with hx
            injection hx with _ hx
            subst hx
            obtain ⟨d, hd⟩ := ih hg
            exact ⟨a ++ (c ++ d), by rw [ha, hc, hd]; simp⟩
        split at h
        · cases h
        · split at h
          · split at h
            · cases h
            · rename_i hx
              obtain ⟨c, _, hc⟩ := getVarint_suffix 10 hx
              exact hgo _ _ ⟨c, hc⟩ h
          · split at h
            · cases h
            · rename_i hx
              exact hgo _ _ ⟨_, getBytes_suffix hx⟩ h
          · split at h
            · cases h
            · rename_i hx
              obtain ⟨c, _, hc⟩ := getVarint_suffix 5 hx
              split at h
              · split at h
                · cases h
                · rename_i hy
                  exact hgo _ _ (by rw [hc, getBytes_suffix hy]; exact ⟨_, (List.append_assoc _ _ _).symm⟩) h
              · cases h
          · split at h
            · cases h
            · split at h
              · cases h
              · rename_i hx
                exact hgo _ _ (ih hx) h
          · split at h
            · injection h with h
              injection h with _ h
              subst h
              exact ⟨a, ha⟩
            · cases h
          · split at h
            · cases h
            · rename_i hx
              exact hgo _ _ ⟨_, getBytes_suffix hx⟩ h
          · cases h

/-- More fuel than bytes makes no difference. -/
theorem getFields_fuel (fuel : Nat) : ∀ {depth : Nat} {group : Option Nat} {bs : Bytes}, bs.length < fuel →
    getFields (fuel + 1) depth group bs = getFields fuel depth group bs := by
  induction fuel with
  | zero => intro depth group bs h; cases h
  | succ fuel ih =>
    intro depth group bs h
    cases bs with
    | nil => cases group <;> rfl
    | cons b bs =>
      rw [getFields, getFields]
      cases htag : getVarint 5 (b :: bs) with
      | none => rfl
      | some x =>
        obtain ⟨tag, rest⟩ := x
        obtain ⟨a, hane, ha⟩ := getVarint_suffix 5 htag
        have hlen : rest.length < fuel := by
          have h1 : (b :: bs).length = a.length + rest.length := by rw [ha, List.length_append]
          have h2 := List.length_pos_iff.mpr hane
          omega
        dsimp only
        split
        · rfl
        · split
          · split
            · rfl
            · rename_i hx
              obtain ⟨c, _, hc⟩ := getVarint_suffix 10 hx
              rw [ih (by have : rest.length = _ := congrArg List.length hc
                         rw [List.length_append] at this; omega)]
          · split
            · rfl
            · rename_i hx
              rw [ih (by have : rest.length = _ := congrArg List.length (getBytes_suffix hx)
                         rw [List.length_append] at this; omega)]
          · split
            · rfl
            · rename_i hx
              obtain ⟨c, _, hc⟩ := getVarint_suffix 5 hx
              split
              · split
                · rfl
                · rename_i hy
                  rw [ih (by have h1 : rest.length = _ := congrArg List.length hc
                             have h2 := congrArg List.length (getBytes_suffix hy)
                             rw [List.length_append] at h1 h2; omega)]
              · rfl
          · split
            · rfl
            · rw [ih hlen]
              split
              · rfl
              · rename_i hx
                obtain ⟨c, hc⟩ := getFields_suffix fuel hx
                rw [ih (by have h1 : rest.length = _ := congrArg List.length hc
                           rw [List.length_append] at h1; omega)]
          · rfl
          · split
            · rfl
            · rename_i hx
              rw [ih (by have : rest.length = _ := congrArg List.length (getBytes_suffix hx)
                         rw [List.length_append] at this; omega)]
          · rfl

/-! ## Messages -/

theorem putAll_append {α : Type} (put : α → Nat × WireVal → Option α) (a b : List (Nat × WireVal)) : ∀ p : α,
    putAll put p (a ++ b) = match putAll put p a with
      | none => none
      | some q => putAll put q b := by
  induction a with
  | nil => intro p; rfl
  | cons f rest ih =>
    intro p
    show (match put p f with | none => none | some q => putAll put q (rest ++ b)) = _
    cases hp : put p f with
    | none => simp only [putAll, hp]
    | some q => simp only [putAll, hp]; exact ih q

/-- The numbers in a message fit into 32 bits. -/
def Argon2Params.Ok (p : Argon2Params) : Prop := p.time < 2 ^ 32 ∧ p.memory < 2 ^ 32 ∧ p.parallelism < 2 ^ 32

theorem uintField_ok {num n : Nat} (h : 0 < num ∧ num < 2 ^ 29) (hn : n < 2 ^ 32) : ∀ f ∈ uintField num n, FieldOk f := by
  intro f hf
  unfold uintField at hf
  split at hf
  · cases hf
  · rw [List.mem_singleton.mp hf]
    exact ⟨h.1, h.2, show n < 2 ^ 64 by omega⟩

theorem boolField_ok {num : Nat} {b : Bool} (h : 0 < num ∧ num < 2 ^ 29) : ∀ f ∈ boolField num b, FieldOk f := by
  intro f hf
  unfold boolField at hf
  split at hf
  · rw [List.mem_singleton.mp hf]
    exact ⟨h.1, h.2, show 1 < 2 ^ 64 by decide⟩
  · cases hf

theorem bytesField_ok {num : Nat} {b : Bytes} (h : 0 < num ∧ num < 2 ^ 29) (hb : b.length < 2 ^ 31 - 16) : ∀ f ∈ bytesField num b, FieldOk f := by
  intro f hf
  unfold bytesField at hf
  split at hf
  · cases hf
  · rw [List.mem_singleton.mp hf]
    exact ⟨h.1, h.2, hb⟩

theorem forall_append {α : Type} {P : α → Prop} {a b : List α} (h1 : ∀ x ∈ a, P x) (h2 : ∀ x ∈ b, P x) : ∀ x ∈ a ++ b, P x := by
  intro x hx
  rcases List.mem_append.mp hx with hx | hx
  · exact h1 x hx
  · exact h2 x hx

theorem putVarint_length (fuel n : Nat) : (putVarint fuel n).length ≤ fuel := by
  induction fuel generalizing n with
  | zero => exact Nat.le_refl _
  | succ fuel ih =>
    unfold putVarint
    split
    · show 1 ≤ fuel + 1; omega
    · have := ih (n / 128)
      show (putVarint fuel (n / 128)).length + 1 ≤ fuel + 1
      omega

theorem putField_length_le (f : Nat × WireVal) : (putField f).length ≤ 15 + (match f.2 with | .len b => b.length | .i64 b => b.length | .i32 b => b.length | _ => 0) := by
  obtain ⟨num, v⟩ := f
  cases v <;> simp only [putField, List.length_append]
  · rename_i n; have := putVarint_length 5 (num * 8); have := putVarint_length 10 n; omega
  · have := putVarint_length 5 (num * 8 + 1); omega
  · rename_i b; have := putVarint_length 5 (num * 8 + 2); have := putVarint_length 5 b.length; omega
  · have := putVarint_length 5 (num * 8 + 3); have := putVarint_length 5 (num * 8 + 4); omega
  · have := putVarint_length 5 (num * 8 + 5); omega

theorem putFields_append (a b : List (Nat × WireVal)) : putFields (a ++ b) = putFields a ++ putFields b := by
  unfold putFields; rw [List.flatMap_append]

theorem uintField_length (num n : Nat) : (putFields (uintField num n)).length ≤ 15 := by
  unfold uintField
  split
  · exact Nat.zero_le _
  · have := putField_length_le (num, .varint n)
    simpa [putFields] using this

theorem boolField_length (num : Nat) (b : Bool) : (putFields (boolField num b)).length ≤ 15 := by
  unfold boolField
  split
  · have := putField_length_le (num, .varint 1)
    simpa [putFields] using this
  · exact Nat.zero_le _

theorem bytesField_length (num : Nat) (b : Bytes) : (putFields (bytesField num b)).length ≤ 15 + b.length := by
  unfold bytesField
  split
  · exact Nat.zero_le _
  · have := putField_length_le (num, .len b)
    simpa [putFields] using this

theorem Argon2Params.fields_ok {p : Argon2Params} (h : p.Ok) : ∀ f ∈ p.fields, FieldOk f :=
  forall_append (forall_append (uintField_ok (by decide) h.1) (uintField_ok (by decide) h.2.1)) (uintField_ok (by decide) h.2.2)

theorem Argon2Params.round {p : Argon2Params} (h : p.Ok) : p.fields.foldl Argon2Params.put {} = p := by
  obtain ⟨t, m, l⟩ := p
  obtain ⟨h1, h2, h3⟩ := h
  dsimp only at h1 h2 h3
  unfold Argon2Params.fields uintField
  rw [List.foldl_append, List.foldl_append]
  dsimp only
  by_cases c1 : t = 0 <;> by_cases c2 : m = 0 <;> by_cases c3 : l = 0 <;>
    simp [c1, c2, c3, Argon2Params.put, Nat.mod_eq_of_lt h1, Nat.mod_eq_of_lt h2, Nat.mod_eq_of_lt h3]

theorem Argon2Params.length {p : Argon2Params} : (putFields p.fields).length ≤ 45 := by
  unfold Argon2Params.fields
  rw [putFields_append, putFields_append, List.length_append, List.length_append]
  have := uintField_length 1 p.time
  have := uintField_length 2 p.memory
  have := uintField_length 3 p.parallelism
  omega

/-- The strings of a message are not too long for the format. -/
def EncParams.Ok (p : EncParams) : Prop :=
  p.salt.length < 2 ^ 31 - 16 ∧ p.iv.length < 2 ^ 31 - 16 ∧ p.mac.length < 2 ^ 31 - 16 ∧ p.ciphertext.length < 2 ^ 31 - 16 ∧ ∀ a, p.argon2 = some a → a.Ok

theorem EncParams.putAll_argon {argon : Option Argon2Params} (h : ∀ a, argon = some a → a.Ok) (q : EncParams) (hq : q.argon2 = none) :
    putAll EncParams.put q (argonField argon) = some { q with argon2 := argon } := by
  obtain ⟨q1, q2, q3, q4, q5⟩ := q
  dsimp only at hq
  subst hq
  cases argon with
  | none => rfl
  | some a =>
    have ha := h a rfl
    simp only [argonField, putAll, EncParams.put, parseFields_putFields 99 _ (Argon2Params.fields_ok ha), Option.getD_none, Argon2Params.round ha]

/-- `EncryptedSecurefsParams` is read back. -/
theorem EncParams.parse_serialize {p : EncParams} (h : p.Ok) : EncParams.parse p.serialize = some p := by
  obtain ⟨salt, iv, mac, ct, argon⟩ := p
  obtain ⟨h1, h2, h3, h4, h5⟩ := h
  dsimp only at h1 h2 h3 h4 h5
  have hok : ∀ f ∈ (EncParams.mk salt iv mac ct argon).fields, FieldOk f := by
    refine forall_append (forall_append (forall_append (forall_append (bytesField_ok (by decide) h1) (bytesField_ok (by decide) h2))
      (bytesField_ok (by decide) h3)) (bytesField_ok (by decide) h4)) ?_
    intro f hf
    cases argon with
    | none => cases hf
    | some a =>
      rw [List.mem_singleton.mp hf]
      refine ⟨show 0 < 5 by decide, show 5 < 2 ^ 29 by decide, ?_⟩
      have := a.length
      show (putFields a.fields).length < _
      omega
  unfold EncParams.parse EncParams.serialize
  rw [parseFields_putFields 100 _ hok]
  dsimp only
  unfold EncParams.fields bytesField
  rw [putAll_append, putAll_append, putAll_append, putAll_append]
  dsimp only
  by_cases c1 : salt = [] <;> by_cases c2 : iv = [] <;> by_cases c3 : mac = [] <;> by_cases c4 : ct = [] <;>
    simp only [c1, c2, c3, c4, if_true, if_false, putAll, EncParams.put] <;> (refine (EncParams.putAll_argon h5 _ ?_).trans ?_ <;> rfl)

/-! ### The parameters of a volume -/

/-- The numbers fit into 32 bits, the strings are not too long, and the suffix is text. -/
def SizeParams.Ok (p : SizeParams) : Prop := p.blockSize < 2 ^ 32 ∧ p.ivSize < 2 ^ 32 ∧ p.maxPadding < 2 ^ 32

/-- See `SizeParams.Ok`. -/
def LiteParams.Ok (p : LiteParams) : Prop :=
  p.nameKey.length < 2 ^ 27 ∧ p.contentKey.length < 2 ^ 27 ∧ p.xattrKey.length < 2 ^ 27 ∧ p.paddingKey.length < 2 ^ 27 ∧
    (∀ t, p.longNameThreshold = some t → t < 2 ^ 32) ∧ p.longNameSuffix.length < 2 ^ 27 ∧ utf8Valid p.longNameSuffix = true

/-- See `SizeParams.Ok`. -/
def FullParams.Ok (p : FullParams) : Prop := p.masterKey.length < 2 ^ 27

/-- See `SizeParams.Ok`. -/
def DecParams.Ok (p : DecParams) : Prop :=
  (∀ s, p.size = some s → s.Ok) ∧ (∀ l, p.format = .lite l → l.Ok) ∧ (∀ f, p.format = .full f → f.Ok)

theorem SizeParams.fields_ok {p : SizeParams} (h : p.Ok) : ∀ f ∈ p.fields, FieldOk f :=
  forall_append (forall_append (uintField_ok (by decide) h.1) (uintField_ok (by decide) h.2.1)) (uintField_ok (by decide) h.2.2)

theorem SizeParams.round {p : SizeParams} (h : p.Ok) : p.fields.foldl SizeParams.put {} = p := by
  obtain ⟨t, m, l⟩ := p
  obtain ⟨h1, h2, h3⟩ := h
  dsimp only at h1 h2 h3
  unfold SizeParams.fields uintField
  rw [List.foldl_append, List.foldl_append]
  dsimp only
  by_cases c1 : t = 0 <;> by_cases c2 : m = 0 <;> by_cases c3 : l = 0 <;>
    simp [c1, c2, c3, SizeParams.put, Nat.mod_eq_of_lt h1, Nat.mod_eq_of_lt h2, Nat.mod_eq_of_lt h3]

theorem SizeParams.length {p : SizeParams} : (putFields p.fields).length ≤ 45 := by
  unfold SizeParams.fields
  rw [putFields_append, putFields_append, List.length_append, List.length_append]
  have := uintField_length 1 p.blockSize
  have := uintField_length 2 p.ivSize
  have := uintField_length 3 p.maxPadding
  omega

theorem LiteParams.fields_ok {p : LiteParams} (h : p.Ok) : ∀ f ∈ p.fields, FieldOk f := by
  obtain ⟨h1, h2, h3, h4, h5, h6, _⟩ := h
  refine forall_append (forall_append (forall_append (forall_append (forall_append (bytesField_ok (by decide) (by omega))
    (bytesField_ok (by decide) (by omega))) (bytesField_ok (by decide) (by omega))) (bytesField_ok (by decide) (by omega))) ?_)
    (bytesField_ok (by decide) (by omega))
  intro f hf
  cases ht : p.longNameThreshold with
  | none => rw [ht] at hf; cases hf
  | some t =>
    rw [ht] at hf
    rw [List.mem_singleton.mp hf]
    have := h5 t ht
    exact ⟨Nat.succ_pos _, by simp, show t < 2 ^ 64 by omega⟩

theorem LiteParams.round {p : LiteParams} (h : p.Ok) : putAll LiteParams.put {} p.fields = some p := by
  obtain ⟨a, b, c, d, t, s⟩ := p
  obtain ⟨_, _, _, _, h5, _, h7⟩ := h
  dsimp only at h5 h7
  have ht : ∀ x, t = some x → x % 2 ^ 32 = x := fun x hx => Nat.mod_eq_of_lt (h5 x hx)
  unfold LiteParams.fields bytesField
  rw [putAll_append, putAll_append, putAll_append, putAll_append, putAll_append]
  dsimp only
  by_cases c1 : a = [] <;> by_cases c2 : b = [] <;> by_cases c3 : c = [] <;> by_cases c4 : d = [] <;> by_cases c6 : s = [] <;>
    cases t <;> simp [c1, c2, c3, c4, c6, putAll, LiteParams.put, thresholdField, h7, ht]

theorem LiteParams.length {p : LiteParams} (h : p.Ok) : (putFields p.fields).length < 2 ^ 30 := by
  obtain ⟨h1, h2, h3, h4, _, h6, _⟩ := h
  unfold LiteParams.fields
  rw [putFields_append, putFields_append, putFields_append, putFields_append, putFields_append]
  simp only [List.length_append]
  have := bytesField_length 1 p.nameKey
  have := bytesField_length 2 p.contentKey
  have := bytesField_length 3 p.xattrKey
  have := bytesField_length 4 p.paddingKey
  have := bytesField_length 6 p.longNameSuffix
  have ht : (putFields (thresholdField p.longNameThreshold)).length ≤ 15 := by
    cases p.longNameThreshold with
    | none => exact Nat.zero_le _
    | some t =>
      have := putField_length_le (5, .varint t)
      simpa [putFields, thresholdField] using this
  omega

theorem FullParams.fields_ok {p : FullParams} (h : p.Ok) : ∀ f ∈ p.fields, FieldOk f :=
  forall_append (forall_append (forall_append (forall_append (bytesField_ok (by decide) (by have h : p.masterKey.length < 2 ^ 27 := h
                                                                                            omega))
    (boolField_ok (by decide))) (boolField_ok (by decide))) (boolField_ok (by decide))) (boolField_ok (by decide))

theorem FullParams.round {p : FullParams} : p.fields.foldl FullParams.put {} = p := by
  obtain ⟨k, a, b, c, d⟩ := p
  unfold FullParams.fields bytesField boolField
  rw [List.foldl_append, List.foldl_append, List.foldl_append, List.foldl_append]
  dsimp only
  by_cases c1 : k = [] <;> cases a <;> cases b <;> cases c <;> cases d <;> simp [c1, FullParams.put]

theorem FullParams.length {p : FullParams} (h : p.Ok) : (putFields p.fields).length < 2 ^ 30 := by
  have h : p.masterKey.length < 2 ^ 27 := h
  unfold FullParams.fields
  rw [putFields_append, putFields_append, putFields_append, putFields_append]
  simp only [List.length_append]
  have := bytesField_length 1 p.masterKey
  have := boolField_length 2 p.storeTime
  have := boolField_length 3 p.legacyFileTableIo
  have := boolField_length 4 p.caseInsensitive
  have := boolField_length 5 p.unicodeAgnostic
  omega

theorem DecParams.fields_ok {p : DecParams} (h : p.Ok) : ∀ f ∈ p.fields, FieldOk f := by
  obtain ⟨h1, h2, h3⟩ := h
  refine forall_append ?_ ?_
  · intro f hf
    cases hs : p.size with
    | none => rw [hs] at hf; cases hf
    | some s =>
      rw [hs] at hf
      rw [List.mem_singleton.mp hf]
      have := s.length
      exact ⟨Nat.succ_pos _, by simp, show (putFields s.fields).length < _ by omega⟩
  · intro f hf
    cases hs : p.format with
    | none => rw [hs] at hf; cases hf
    | lite l =>
      rw [hs] at hf
      rw [List.mem_singleton.mp hf]
      have := LiteParams.length (h2 l hs)
      exact ⟨Nat.succ_pos _, by simp, show (putFields l.fields).length < _ by omega⟩
    | full l =>
      rw [hs] at hf
      rw [List.mem_singleton.mp hf]
      have := FullParams.length (h3 l hs)
      exact ⟨Nat.succ_pos _, by simp, show (putFields l.fields).length < _ by omega⟩

/-- `DecryptedSecurefsParams` is read back. -/
theorem DecParams.parse_serialize {p : DecParams} (h : p.Ok) : DecParams.parse p.serialize = some p := by
  unfold DecParams.parse DecParams.serialize
  rw [parseFields_putFields 100 _ (DecParams.fields_ok h)]
  obtain ⟨size, format⟩ := p
  obtain ⟨h1, h2, h3⟩ := h
  dsimp only at h1 h2 h3 ⊢
  unfold DecParams.fields
  rw [putAll_append]
  dsimp only
  have hfirst : putAll DecParams.put {} (sizeField size) = some { size := size, format := .none } := by
    cases size with
    | none => rfl
    | some s =>
      have hs := h1 s rfl
      simp only [sizeField, putAll, DecParams.put, parseFields_putFields 99 _ (SizeParams.fields_ok hs), Option.getD_none, SizeParams.round hs]
  rw [hfirst]
  dsimp only
  cases format with
  | none => rfl
  | lite l =>
    have hl := h2 l rfl
    simp only [formatField, putAll, DecParams.put, parseFields_putFields 99 _ (LiteParams.fields_ok hl), LiteParams.round hl]
  | full l =>
    have hl := h3 l rfl
    simp only [formatField, putAll, DecParams.put, parseFields_putFields 99 _ (FullParams.fields_ok hl), FullParams.round]

/-! ## Text that is not a message -/

theorem getVarint_ascii {b : UInt8} {bs : Bytes} {n : Nat} {r : Bytes} (hb : b.toNat < 128) (h : getVarint 5 (b :: bs) = some (n, r)) :
    n = b.toNat ∧ r = bs := by
  unfold getVarint at h
  rw [if_pos hb] at h
  injection h with h
  injection h with h1 h2
  exact ⟨h1.symm, h2.symm⟩

/-- Group 15 ends only with the byte `|`, in text of ASCII characters. -/
theorem group15_end (fuel : Nat) : ∀ {depth : Nat} {bs : Bytes} {fs : List (Nat × WireVal)} {r : Bytes}, (∀ b ∈ bs, b.toNat < 128) →
    getFields fuel depth (some 15) bs = some (fs, r) → (0x7C : UInt8) ∈ bs := by
  induction fuel with
  | zero => intro depth bs fs r _ h; cases h
  | succ fuel ih =>
    intro depth bs fs r hascii h
    cases bs with
    | nil => cases h
    | cons b bs =>
      rw [getFields] at h
      cases htag : getVarint 5 (b :: bs) with
      | none => rw [htag] at h; cases h
      | some x =>
        obtain ⟨tag, rest⟩ := x
        obtain ⟨ht, hr⟩ := getVarint_ascii (hascii b List.mem_cons_self) htag
        have hb128 := hascii b List.mem_cons_self
        rw [htag] at h
        dsimp only at h
        subst ht
        subst hr
        have hgo : ∀ (v : WireVal) (r' : Bytes) , (∃ c, rest = c ++ r') →
            (match getFields fuel depth (some 15) r' with
              | none => none
              | some (fs, r) => some ((b.toNat % 2 ^ 32 / 8, v) :: fs, r)) = some (fs, r) → (0x7C : UInt8) ∈ b :: rest := by
          rintro v r' ⟨c, hc⟩ hx
          cases hg : getFields fuel depth (some 15) r' with
          | none => rw [hg] at hx; cases hx
          | some y =>
            have hm : (0x7C : UInt8) ∈ r' := ih (fun x hx => hascii x (List.mem_cons_of_mem _ (by rw [hc]; exact List.mem_append_right _ hx))) hg
            exact List.mem_cons_of_mem _ (by rw [hc]; exact List.mem_append_right _ hm)
        split at h
        · cases h
        · split at h
          · split at h
            · cases h
            · rename_i hx
              obtain ⟨c, _, hc⟩ := getVarint_suffix 10 hx
              exact hgo _ _ ⟨c, hc⟩ h
          · split at h
            · cases h
            · rename_i hx
              exact hgo _ _ ⟨_, getBytes_suffix hx⟩ h
          · split at h
            · cases h
            · rename_i hx
              obtain ⟨c, _, hc⟩ := getVarint_suffix 5 hx
              split at h
              · split at h
                · cases h
                · rename_i hy
                  exact hgo _ _ (by rw [hc, getBytes_suffix hy]; exact ⟨_, (List.append_assoc _ _ _).symm⟩) h
              · cases h
          · split at h
            · cases h
            · split at h
              · cases h
              · rename_i hx
                exact hgo _ _ (getFields_suffix fuel hx) h
          · rename_i h4
            split at h
            · rename_i h15
              injection h15 with h15
              have : b.toNat = 124 := by omega
              have : b = 0x7C := UInt8.toNat_inj.mp (this.trans rfl)
              rw [this]
              exact List.mem_cons_self
            · cases h
          · split at h
            · cases h
            · rename_i hx
              exact hgo _ _ ⟨_, getBytes_suffix hx⟩ h
          · cases h

/-- Text of ASCII characters that starts with `{` and does not contain `|` is not a message. -/
theorem brace_not_message (bs : Bytes) (hascii : ∀ b ∈ bs, b.toNat < 128) (hbar : (0x7C : UInt8) ∉ bs) (depth : Nat) :
    parseFields depth (0x7B :: bs) = none := by
  unfold parseFields
  have : getFields ((0x7B :: bs).length + 1) depth none (0x7B :: bs) = none := by
    unfold getFields
    have htag : getVarint 5 ((0x7B : UInt8) :: bs) = some (123, bs) := rfl
    rw [htag]
    dsimp only
    rw [if_neg (by decide)]
    cases depth with
    | zero => rfl
    | succ depth =>
      show (match getFields (0x7B :: bs).length depth (some 15) bs with | none => none | some (_, r) => _) = none
      cases hg : getFields (0x7B :: bs).length depth (some 15) bs with
      | none => rfl
      | some x => exact absurd (group15_end _ hascii hg) hbar
  rw [this]

end Securefs

import Verif.Model.Names
import Verif.Props.Siv
import Verif.Spec.Names
/-! Helper lemmas about the name translators. -/

namespace Securefs

open Props Spec

theorem slash_notin_alphabet : slash ∉ Spec.alphabet32 := by decide +kernel
theorem dot_notin_alphabet : dot ∉ Spec.alphabet32 := by decide +kernel

/-! ## Splitting -/

theorem splitSlash_ne (path : Bytes) : ∀ cur, splitSlash cur path ≠ [] := by
  induction path with
  | nil => intro cur; simp [splitSlash]
  | cons c rest ih => intro cur; unfold splitSlash; split <;> simp [ih]

theorem join_cons_of_ne (p : Bytes) (l : List Bytes) (h : l ≠ []) : join (p :: l) = p ++ 47 :: join l := by
  cases l with
  | nil => exact absurd rfl h
  | cons q r => rfl

theorem splitSlash_spec (path : Bytes) : ∀ cur, (47 : UInt8) ∉ cur →
    PiecesOf (cur ++ path) (splitSlash cur path) := by
  induction path with
  | nil => intro cur h; simp [splitSlash, PiecesOf, join, h]
  | cons c rest ih =>
    intro cur h
    unfold splitSlash
    by_cases hc : c = slash
    · rw [if_pos hc]
      obtain ⟨h1, h2, h3⟩ := ih [] (by simp)
      refine ⟨by simp, ?_, ?_⟩
      · intro p hp
        rcases List.mem_cons.mp hp with rfl | hp
        · exact h
        · exact h2 p hp
      · rw [join_cons_of_ne _ _ h1, h3, hc]; rfl
    · rw [if_neg hc]
      have hc' : ¬ (47 : UInt8) = c := fun e => hc e.symm
      have := ih (cur ++ [c]) (by simp [h, hc'])
      simpa using this

theorem splitSlash_join_aux (p : Bytes) (rest : Bytes) : ∀ cur, (47 : UInt8) ∉ p →
    splitSlash cur (p ++ 47 :: rest) = (cur ++ p) :: splitSlash [] rest := by
  induction p with
  | nil => intro cur _; simp [splitSlash, slash]
  | cons c q ih =>
    intro cur h
    have hc : ¬ c = slash := fun e => h (by rw [e]; exact List.mem_cons_self)
    rw [List.cons_append, splitSlash, if_neg hc, ih _ (fun e => h (List.mem_cons_of_mem _ e))]
    simp

theorem splitSlash_noslash (p : Bytes) : ∀ cur, (47 : UInt8) ∉ p → splitSlash cur p = [cur ++ p] := by
  induction p with
  | nil => intro cur _; simp [splitSlash]
  | cons c q ih =>
    intro cur h
    have hc : ¬ c = slash := fun e => h (by rw [e]; exact List.mem_cons_self)
    rw [splitSlash, if_neg hc, ih _ (fun e => h (List.mem_cons_of_mem _ e))]
    simp

theorem splitSlash_join (parts : List Bytes) (hne : parts ≠ []) (h : ∀ p ∈ parts, (47 : UInt8) ∉ p) :
    splitSlash [] (join parts) = parts := by
  induction parts with
  | nil => exact absurd rfl hne
  | cons p l ih =>
    cases l with
    | nil =>
      show splitSlash [] p = [p]
      rw [splitSlash_noslash p [] (h p (by simp))]; rfl
    | cons q r =>
      rw [join, splitSlash_join_aux _ _ _ (h p (by simp)), ih (by simp) (fun x hx => h x (List.mem_cons_of_mem _ hx))]
      rfl

theorem pieces_eq {path : Bytes} {parts : List Bytes} (h : PiecesOf path parts) : splitSlash [] path = parts := by
  obtain ⟨h1, h2, rfl⟩ := h
  exact splitSlash_join parts h1 h2

theorem pieces_unique {path : Bytes} {a b : List Bytes} (h : PiecesOf path a) (h' : PiecesOf path b) : a = b := by
  rw [← pieces_eq h, ← pieces_eq h']

theorem pieces_exist (path : Bytes) : ∃ parts, PiecesOf path parts := ⟨_, splitSlash_spec path [] (by simp)⟩

/-- Reading a list of pieces each after a slash is unambiguous. -/
theorem eachAfterSlash_eq (l : List Bytes) (h : l ≠ []) : eachAfterSlash l = 47 :: join l := by
  induction l with
  | nil => exact absurd rfl h
  | cons p r ih =>
    cases r with
    | nil => simp [eachAfterSlash, join]
    | cons q r =>
      rw [eachAfterSlash, ih (by simp), join]; simp

/-! ## Names -/

theorem encodeName_spec {S : Siv} (hS : S.WF) (name : Bytes) : ∃ s c v, encodeName S name = .ok s ∧
    S.encrypt name [] = .ok (c, v) ∧ base32Encode (v ++ c) = .ok s ∧ base32Decode s = .ok (v ++ c) ∧ v.length = 16 ∧
    c.length = name.length ∧ S.decrypt c [] v = .ok (true, name) ∧ s.length = (8 * (name.length + 16) + 4) / 5 ∧
    ∀ x ∈ s, x ∈ Spec.alphabet32 := by
  obtain ⟨c, v, h1, h2, h3, h4⟩ := C16_round_trip S hS name []
  obtain ⟨s, g1, g2⟩ := C15_round_trip (v ++ c)
  obtain ⟨s', g3, g4, _⟩ := C15_encode_exact (v ++ c)
  rw [g1] at g3; cases g3
  refine ⟨s, c, v, ?_, h1, g1, g2, h3, h2, h4, ?_, C15_alphabet _ _ g1⟩
  · unfold encodeName; rw [h1]; exact g1
  · rw [g4, List.length_append, h2, h3]; congr 2; omega

theorem encodeName_ne {S : Siv} (hS : S.WF) (name s : Bytes) (h : encodeName S name = .ok s) : s ≠ [] := by
  obtain ⟨s', c, v, h1, _, _, _, _, _, _, h2, _⟩ := encodeName_spec hS name
  rw [h] at h1; cases h1
  intro e
  subst e
  simp only [List.length_nil] at h2
  omega

theorem decodeName_encodeName {S : Siv} (hS : S.WF) (name s : Bytes) (hn : name ≠ []) (h : encodeName S name = .ok s) :
    decodeName S s = .ok (.name name) := by
  obtain ⟨s', c, v, h1, _, _, h4, h5, h6, h7, _⟩ := encodeName_spec hS name
  rw [h] at h1; cases h1
  have := List.length_pos_iff.mpr hn
  unfold decodeName
  rw [h4]
  simp only [List.length_append, kSivSize]
  rw [if_neg (by omega), ← h5, List.drop_left, List.take_left, h7]
  rfl

theorem encodeName_inj {S : Siv} (hS : S.WF) (n n' s : Bytes) (h : encodeName S n = .ok s) (h' : encodeName S n' = .ok s) :
    n = n' := by
  obtain ⟨s1, c, v, h1, h2, _, h4, h5, h6, h7, _⟩ := encodeName_spec hS n
  obtain ⟨s2, c', v', g1, g2, _, g4, g5, g6, g7, _⟩ := encodeName_spec hS n'
  rw [h] at h1; cases h1
  rw [h'] at g1; cases g1
  rw [h4] at g4
  have e := Except.ok.inj g4
  obtain ⟨rfl, rfl⟩ := List.append_inj e (by omega)
  rw [h7] at g7
  cases g7
  rfl

/-- What is accepted as a name is a spelling of the encryption of that name. -/
theorem decodeName_total {S : Siv} (hS : S.WF) (p : Bytes) :
    decodeName S p = .ok .invalid ∨
    (∃ n c v, n ≠ [] ∧ decodeName S p = .ok (.name n) ∧ base32Decode p = .ok (v ++ c) ∧ v.length = 16 ∧
      S.encrypt n [] = .ok (c, v)) ∨
    decodeName S p = .error .invalidArg ∨ decodeName S p = .error .outOfRange := by
  unfold decodeName
  rcases C15_decode_safe p with ⟨d, h, _⟩ | h | h
  · rw [h]
    dsimp only
    by_cases hl : d.length ≤ kSivSize
    · rw [if_pos hl]; exact Or.inl rfl
    · rw [if_neg hl]
      simp only [kSivSize] at hl ⊢
      obtain ⟨ok, m, g1, g2, g3⟩ := C16_accepts_only_encryptions S hS (d.drop 16) [] (d.take 16) (by simp; omega)
      rw [g1]
      cases ok with
      | false => exact Or.inl rfl
      | true =>
        refine Or.inr (Or.inl ⟨m, _, _, ?_, rfl, ?_, by simp; omega, g3.mp rfl⟩)
        · intro e; subst e; simp at g2; omega
        · rw [List.take_append_drop]
  · rw [h]; exact Or.inr (Or.inr (Or.inl rfl))
  · rw [h]; exact Or.inr (Or.inr (Or.inr rfl))

/-! ## The new translator -/

theorem endsWith_iff (s suf : Bytes) : endsWith s suf = true ↔ ∃ p, s = p ++ suf := by
  unfold endsWith
  constructor
  · intro h
    simp only [Bool.and_eq_true, decide_eq_true_eq, beq_iff_eq] at h
    exact ⟨s.take (s.length - suf.length), by
      have := (List.take_append_drop (s.length - suf.length) s).symm
      rwa [h.2] at this⟩
  · rintro ⟨p, rfl⟩
    simp

theorem encodeComponent_total {T : NewStyle} (hS : T.siv.WF) (v : Bytes) : ∃ s, T.encodeComponent v = .ok s := by
  unfold NewStyle.encodeComponent
  split
  · exact ⟨_, rfl⟩
  · split
    · obtain ⟨s, _, _, h, _⟩ := encodeName_spec hS v
      exact ⟨s, h⟩
    · obtain ⟨s, _, _, h, _⟩ := encodeName_spec hS (T.hash v)
      exact ⟨s ++ T.suffix, by rw [h]⟩

theorem encodeComponent_inline {T : NewStyle} (v : Bytes) (h : v ≠ []) (hl : v.length ≤ T.threshold) :
    T.encodeComponent v = encodeName T.siv v := by
  unfold NewStyle.encodeComponent
  rw [if_neg (by simpa using h), if_pos hl]

theorem encodeComponent_long {T : NewStyle} (hS : T.siv.WF) (v : Bytes) (hl : T.threshold < v.length) :
    ∃ s, encodeName T.siv (T.hash v) = .ok s ∧ T.encodeComponent v = .ok (s ++ T.suffix) := by
  unfold NewStyle.encodeComponent
  obtain ⟨s, _, _, h, _⟩ := encodeName_spec hS (T.hash v)
  have : v ≠ [] := by intro e; subst e; simp at hl
  rw [if_neg (by simpa using this), if_neg (by omega), h]
  exact ⟨s, rfl, rfl⟩

theorem encodeParts_spec {T : NewStyle} (hS : T.siv.WF) (l : List Bytes) : ∃ l', T.encodeParts l = .ok (eachAfterSlash l') ∧
    List.Forall₂ (fun v s => T.encodeComponent v = .ok s) l l' := by
  induction l with
  | nil => exact ⟨[], rfl, .nil⟩
  | cons v rest ih =>
    obtain ⟨l', h1, h2⟩ := ih
    obtain ⟨s, hs⟩ := encodeComponent_total hS v
    refine ⟨s :: l', ?_, .cons hs h2⟩
    unfold NewStyle.encodeParts
    rw [hs, h1]
    rfl

/-! ## Symbolic links -/

theorem bitAt_append_left (a b : Bytes) (n : Nat) (h : n < 8 * a.length) : bitAt (a ++ b) n = bitAt a n := by
  unfold bitAt
  rw [List.getElem?_append_left (by omega)]

theorem bitAt_append_right (a b : Bytes) (n : Nat) : bitAt (a ++ b) (8 * a.length + n) = bitAt b n := by
  unfold bitAt
  have e1 : (8 * a.length + n) / 8 = a.length + n / 8 := by omega
  have e2 : (8 * a.length + n) % 8 = n % 8 := by omega
  rw [e1, e2, List.getElem?_append_right (by omega)]
  simp

theorem symbol_of_bits (b b' : Bytes) (j j' : Nat) (a a' : Nat) (ha : a < 32) (ha' : a' < 32)
    (h : ∀ t, t < 5 → a.testBit (4 - t) = bitAt b (5 * j + t)) (h' : ∀ t, t < 5 → a'.testBit (4 - t) = bitAt b' (5 * j' + t))
    (e : ∀ t, t < 5 → bitAt b (5 * j + t) = bitAt b' (5 * j' + t)) : a = a' := by
  have : ∀ a a' : Fin 32, (∀ t : Fin 5, a.val.testBit (4 - t.val) = a'.val.testBit (4 - t.val)) → a = a' := by decide +kernel
  have := this ⟨a, ha⟩ ⟨a', ha'⟩ (fun t => by rw [h t.val t.isLt, h' t.val t.isLt, e t.val t.isLt])
  exact congrArg Fin.val this

/-- The code words of two strings can be joined if the first has whole groups. -/
theorem base32Encode_append (a b sa sb : Bytes) (h5 : a.length % 5 = 0) (ha : base32Encode a = .ok sa)
    (hb : base32Encode b = .ok sb) : base32Encode (a ++ b) = .ok (sa ++ sb) := by
  obtain ⟨s1, e1, l1, c1⟩ := base32Encode_spec a
  obtain ⟨s2, e2, l2, c2⟩ := base32Encode_spec b
  obtain ⟨s, e, l, c⟩ := base32Encode_spec (a ++ b)
  rw [ha] at e1; cases e1
  rw [hb] at e2; cases e2
  rw [e]
  congr 1
  rw [List.length_append] at l
  apply List.ext_getElem
  · rw [List.length_append]; omega
  · intro i h1 h2
    obtain ⟨g, g1, g2, g3⟩ := c i s[i] (List.getElem?_eq_getElem h1)
    by_cases hi : i < sa.length
    · rw [List.getElem_append_left hi]
      obtain ⟨k, k1, k2, k3⟩ := c1 i sa[i] (List.getElem?_eq_getElem hi)
      have : g = k := symbol_of_bits _ _ _ _ _ _ g1 k1 g3 k3 (fun t ht => bitAt_append_left _ _ _ (by omega))
      subst this
      rw [g2] at k2
      exact Option.some.inj k2
    · rw [List.getElem_append_right (by omega)]
      have hi' : i - sa.length < sb.length := by rw [List.length_append] at h2; omega
      obtain ⟨k, k1, k2, k3⟩ := c2 (i - sa.length) sb[i - sa.length] (List.getElem?_eq_getElem hi')
      have : g = k := symbol_of_bits _ _ _ _ _ _ g1 k1 g3 k3 (fun t ht => by
        have := bitAt_append_right a b (5 * (i - sa.length) + t)
        rw [← this]
        congr 1
        omega)
      subst this
      rw [g2] at k2
      exact Option.some.inj k2

theorem filter_of_alphabet (s : Bytes) (h : ∀ x ∈ s, x ∈ Spec.alphabet32) : s.filter (· != slash) = s := by
  rw [List.filter_eq_self]
  intro x hx
  have : x ≠ slash := fun e => slash_notin_alphabet (e ▸ h x hx)
  simpa using this

theorem symlinkChunks_spec : ∀ (fuel : Nat) (buf : Bytes), buf.length ≤ fuel → ∃ l s, symlinkChunks fuel buf = .ok (eachAfterSlash l) ∧
    (∀ p ∈ l, p ≠ [] ∧ p.length ≤ 96 ∧ ∀ x ∈ p, x ∈ Spec.alphabet32) ∧ base32Encode buf = .ok s ∧
    (eachAfterSlash l).filter (· != slash) = s ∧ (eachAfterSlash l).length = s.length + l.length ∧ l.length = (buf.length + 59) / 60 := by
  intro fuel
  induction fuel with
  | zero =>
    intro buf h
    have : buf = [] := List.length_eq_zero_iff.mp (by omega)
    subst this
    exact ⟨[], [], rfl, by simp, by decide, rfl, rfl, rfl⟩
  | succ fuel ih =>
    intro buf h
    by_cases hb : buf = []
    · subst hb
      exact ⟨[], [], rfl, by simp, by decide, rfl, rfl, rfl⟩
    · have hpos := List.length_pos_iff.mpr hb
      obtain ⟨part, h1, h2, _⟩ := C15_encode_exact (buf.take 60)
      have h3 := C15_alphabet _ _ h1
      obtain ⟨l, s, g1, g2, g3, g4, g5, g6⟩ := ih (buf.drop 60) (by simp; omega)
      rw [List.length_take] at h2
      rw [List.length_drop] at g6
      refine ⟨part :: l, part ++ s, ?_, ?_, ?_, ?_, ?_, ?_⟩
      · unfold symlinkChunks
        rw [if_neg (by simpa using hb), h1, g1]
        rfl
      · intro p hp
        rcases List.mem_cons.mp hp with rfl | hp
        · refine ⟨?_, by omega, h3⟩
          intro e; subst e; simp only [List.length_nil] at h2; omega
        · exact g2 p hp
      · by_cases hl : buf.length ≤ 60
        · have hd : buf.drop 60 = [] := List.drop_eq_nil_of_le hl
          rw [hd] at g3
          have : s = [] := by
            have : base32Encode [] = .ok [] := by decide
            rw [this] at g3
            exact (Except.ok.inj g3).symm
          rw [this, List.append_nil, ← h1, List.take_of_length_le hl]
        · have := base32Encode_append (buf.take 60) (buf.drop 60) part s (by simp; omega) h1 g3
          rwa [List.take_append_drop] at this
      · rw [eachAfterSlash, List.cons_append, List.filter_cons_of_neg (by simp [slash]), List.filter_append, g4,
          filter_of_alphabet _ h3]
      · rw [eachAfterSlash]
        simp only [List.cons_append, List.length_cons, List.length_append, g5]
        omega
      · simp only [List.length_cons, g6]
        omega

/-! ## The legacy translator -/

/-- A function over the pieces, with the slashes kept. -/
def overPieces (f : Bytes → Res Bytes) : List Bytes → Res Bytes
  | [] => .ok []
  | [p] => f p
  | p :: q :: rest =>
    match f p with
    | .error e => .error e
    | .ok s =>
      match overPieces f (q :: rest) with
      | .error e => .error e
      | .ok r => .ok (s ++ slash :: r)

theorem overPieces_cons (f : Bytes → Res Bytes) (p : Bytes) (l : List Bytes) (h : l ≠ []) : overPieces f (p :: l) =
    match f p with
    | .error e => .error e
    | .ok s =>
      match overPieces f l with
      | .error e => .error e
      | .ok r => .ok (s ++ slash :: r) := by
  cases l with
  | nil => exact absurd rfl h
  | cons q r => rfl

theorem legacyEncryptLoop_eq (S : Siv) (path : Bytes) : ∀ cur,
    legacyEncryptLoop S cur path = overPieces (legacyEncryptSlice S) (splitSlash cur path) := by
  induction path with
  | nil => intro cur; rfl
  | cons c rest ih =>
    intro cur
    unfold legacyEncryptLoop splitSlash
    by_cases hc : c = slash
    · rw [if_pos hc, if_pos hc, overPieces_cons _ _ _ (splitSlash_ne _ _), ih]
      rfl
    · rw [if_neg hc, if_neg hc, ih]

theorem legacyDecryptLoop_eq (S : Siv) (path : Bytes) : ∀ cur,
    legacyDecryptLoop S cur path = overPieces (legacyDecryptSlice S) (splitSlash cur path) := by
  induction path with
  | nil => intro cur; rfl
  | cons c rest ih =>
    intro cur
    unfold legacyDecryptLoop splitSlash
    by_cases hc : c = slash
    · rw [if_pos hc, if_pos hc, overPieces_cons _ _ _ (splitSlash_ne _ _), ih]
      rfl
    · rw [if_neg hc, if_neg hc, ih]

theorem overPieces_ok (f : Bytes → Res Bytes) (l l' : List Bytes) (h : List.Forall₂ (fun v s => f v = .ok s) l l') :
    overPieces f l = .ok (join l') := by
  induction h with
  | nil => rfl
  | @cons a b l l' h1 h2 ih =>
    cases h2 with
    | nil => exact h1
    | @cons a2 b2 l2 l2' h3 h4 =>
      rw [overPieces_cons _ _ _ (by simp), h1, ih, join]
      rfl

theorem overPieces_inv (f : Bytes → Res Bytes) : ∀ (l : List Bytes) (r : Bytes), overPieces f l = .ok r → ∃ l', List.Forall₂ (fun v s => f v = .ok s) l l' ∧
    r = join l' := by
  intro l
  induction l with
  | nil => intro r h; cases h; exact ⟨[], .nil, rfl⟩
  | cons p l ih =>
    intro r h
    cases hl : l with
    | nil => subst hl; exact ⟨[r], .cons h .nil, rfl⟩
    | cons q t =>
      rw [overPieces_cons _ _ _ (by simp [hl])] at h
      rw [← hl]
      cases h1 : f p with
      | error e => rw [h1] at h; cases h
      | ok s =>
        rw [h1] at h
        cases h2 : overPieces f l with
        | error e => rw [h2] at h; cases h
        | ok r2 =>
          rw [h2] at h
          cases h
          obtain ⟨l', g1, g2⟩ := ih r2 h2
          refine ⟨s :: l', .cons h1 g1, ?_⟩
          rw [g2, join_cons_of_ne]
          · rfl
          · intro e; subst e; rw [hl] at g1; cases g1

theorem legacyEncryptSlice_cases {S : Siv} (hS : S.WF) (v : Bytes) :
    (v = [] ∧ legacyEncryptSlice S v = .ok []) ∨
    (v ≠ [] ∧ v.length ≤ 2000 ∧ ∃ s, encodeName S v = .ok s ∧ legacyEncryptSlice S v = .ok s) ∨
    (2000 < v.length ∧ legacyEncryptSlice S v = .error (.vfs eNameTooLong)) := by
  unfold legacyEncryptSlice
  by_cases hv : v = []
  · subst hv; exact Or.inl ⟨rfl, rfl⟩
  · right
    rw [if_neg (by simpa using hv)]
    by_cases hl : v.length > 2000
    · right; rw [if_pos hl]; exact ⟨hl, rfl⟩
    · left
      rw [if_neg hl]
      obtain ⟨s, _, _, h, _⟩ := encodeName_spec hS v
      exact ⟨hv, by omega, s, h, h⟩

theorem legacySlice_round {S : Siv} (hS : S.WF) (v s : Bytes) (h : legacyEncryptSlice S v = .ok s) :
    legacyDecryptSlice S s = .ok v := by
  rcases legacyEncryptSlice_cases hS v with ⟨rfl, h1⟩ | ⟨hv, hl, s', h1, h2⟩ | ⟨_, h1⟩
  · rw [h] at h1; cases h1; rfl
  · rw [h] at h2; cases h2
    have hne := encodeName_ne hS v s h1
    obtain ⟨s', c, w, g1, _, _, g4, g5, g6, g7, _⟩ := encodeName_spec hS v
    rw [h1] at g1; cases g1
    unfold legacyDecryptSlice
    rw [if_neg (by simpa using hne), g4]
    simp only [List.length_append, kSivSize]
    rw [if_neg (by omega), if_neg (by omega), ← g5, List.drop_left, List.take_left, g7]
    rfl
  · rw [h] at h1; cases h1

theorem legacySlice_noslash {S : Siv} (hS : S.WF) (v s : Bytes) (h : legacyEncryptSlice S v = .ok s) :
    (v = [] ↔ s = []) ∧ ∀ x ∈ s, x ∈ Spec.alphabet32 := by
  rcases legacyEncryptSlice_cases hS v with ⟨rfl, h1⟩ | ⟨hv, hl, s', h1, h2⟩ | ⟨_, h1⟩
  · rw [h] at h1; cases h1; simp
  · rw [h] at h2; cases h2
    obtain ⟨s', c, w, g1, _, _, _, _, _, _, _, g9⟩ := encodeName_spec hS v
    rw [h1] at g1; cases g1
    exact ⟨⟨fun e => absurd e hv, fun e => absurd e (encodeName_ne hS v s h1)⟩, g9⟩
  · rw [h] at h1; cases h1

theorem forall2_imp {R R' : Bytes → Bytes → Prop} {l l' : List Bytes} (f : ∀ v s, R v s → R' v s)
    (h : List.Forall₂ R l l') : List.Forall₂ R' l l' := by
  induction h with
  | nil => exact .nil
  | cons e _ ih => exact .cons (f _ _ e) ih

theorem forall2_pieces {R : Bytes → Bytes → Prop} {l l' : List Bytes} (h : List.Forall₂ R l l')
    (hR : ∀ v s, R v s → (47 : UInt8) ∉ s) (hne : l ≠ []) : PiecesOf (join l') l' := by
  refine ⟨?_, ?_, rfl⟩
  · intro e; subst e; cases h; exact hne rfl
  · intro p hp
    clear hne
    induction h with
    | nil => cases hp
    | cons h1 _ ih =>
      rcases List.mem_cons.mp hp with rfl | hp
      · exact hR _ _ h1
      · exact ih hp

end Securefs

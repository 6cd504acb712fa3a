import Verif.Model.Migrate
import Verif.Props.Names
/-!
# C47: Migrating to long names keeps existing names

Proved for suffixes with a character that is not a base32 symbol, as the default has; for others the listing of existing names fails
(`C47_suffix_violated`), because the suffix is not checked.
-/

namespace Securefs.Props

open Spec

theorem migrateScan_le (stored : List (Bytes × Bool)) : ∀ l m, migrateScan l stored = .ok m → l ≤ m ∧ ∀ e ∈ stored, e.1.length ≤ m := by
  induction stored with
  | nil => intro l m h; injection h with h; exact ⟨Nat.le_of_eq h, nofun⟩
  | cons e rest ih =>
    intro l m h
    obtain ⟨name, isLink⟩ := e
    cases isLink with
    | true => cases h
    | false =>
      obtain ⟨h1, h2⟩ := ih _ _ h
      refine ⟨by omega, fun e he => ?_⟩
      rcases List.mem_cons.mp he with rfl | he
      · show name.length ≤ m; omega
      · exact h2 e he

/-- A name whose backing name is not longer than the longest is not longer than the threshold. -/
theorem le_migrateThreshold {n longest : Nat} (h : (8 * (n + 16) + 4) / 5 ≤ longest) (hl : longest < 2 ^ 32) :
    n ≤ migrateThreshold longest % 2 ^ 32 ∧ 0 < migrateThreshold longest % 2 ^ 32 := by
  unfold migrateThreshold
  split
  · rename_i hx
    have hx : longest < (128 + 16) * 8 / 5 := hx
    have : kDefaultLongNameThreshold % 2 ^ 32 = 128 := by decide
    rw [this]
    omega
  · rename_i hx
    have hx : ¬ longest < (128 + 16) * 8 / 5 := hx
    rw [Nat.mod_eq_of_lt (show longest * 5 < 2 ^ 64 by omega)]
    rw [show (longest * 5 / 8 + 2 ^ 64 - 16) % 2 ^ 64 = longest * 5 / 8 - 16 by omega, Nat.mod_eq_of_lt (by omega)]
    omega

/-- Every component that is stored keeps its backing name: the threshold is that of a translator with long names, and it encrypts the
    component to the name that is stored. -/
theorem C47_component (K : NameKeys) (hS : K.siv.WF) (suffix : Bytes) (stored : List (Bytes × Bool)) (threshold : Nat)
    (hm : migrate stored = .ok threshold) (hlen : ∀ e ∈ stored, e.1.length < 2 ^ 32) (v s : Bytes) (hv : v ≠ [])
    (hs : legacyEncryptSlice K.siv v = .ok s) (hmem : (s, false) ∈ stored) :
    makeTranslator K threshold suffix = .inl (mkNewStyle K threshold suffix) ∧ v.length ≤ threshold ∧
      (mkNewStyle K threshold suffix).encodeComponent v = .ok s := by
  unfold migrate at hm
  cases hscan : migrateScan 0 stored with
  | error e => rw [hscan] at hm; cases hm
  | ok longest =>
    rw [hscan] at hm
    injection hm with hm
    have hle := (migrateScan_le stored 0 longest hscan).2 _ hmem
    have henc : encodeName K.siv v = .ok s := by
      unfold legacyEncryptSlice at hs
      rw [if_neg (by simpa using hv)] at hs
      split at hs
      · cases hs
      · exact hs
    obtain ⟨s', _, _, h1, _, _, _, _, _, _, h2, _⟩ := encodeName_spec hS v
    rw [henc] at h1
    injection h1 with h1
    subst h1
    have hlt : longest < 2 ^ 32 := by
      have : ∀ (l : List (Bytes × Bool)) (a m : Nat), migrateScan a l = .ok m → a < 2 ^ 32 → (∀ e ∈ l, e.1.length < 2 ^ 32) → m < 2 ^ 32 := by
        intro l
        induction l with
        | nil => intro a m h ha _; injection h with h; omega
        | cons e rest ih =>
          intro a m h ha hl
          obtain ⟨name, isLink⟩ := e
          cases isLink with
          | true => cases h
          | false =>
            have := hl _ List.mem_cons_self
            exact ih _ _ h (Nat.max_lt.mpr ⟨ha, this⟩) fun e he => hl e (List.mem_cons_of_mem _ he)
      exact this stored 0 longest hscan (by decide) hlen
    have h3 := le_migrateThreshold (n := v.length) (by rw [← h2]; exact hle) hlt
    rw [hm] at h3
    refine ⟨if_pos h3.2, h3.1, ?_⟩
    rw [encodeComponent_inline (T := mkNewStyle K threshold suffix) v hv h3.1]
    exact henc

/-- Whole paths: what was found under the pieces `stored` is found under the same pieces, and no row of a long name is looked for. -/
theorem C47_path (K : NameKeys) (hS : K.siv.WF) (suffix : Bytes) (stored : List (Bytes × Bool)) (threshold : Nat)
    (hm : migrate stored = .ok threshold) (hlen : ∀ e ∈ stored, e.1.length < 2 ^ 32) (path : Bytes) (parts parts' : List Bytes)
    (hp : PiecesOf path parts) (hold : List.Forall₂ (fun v s => legacyEncryptSlice K.siv v = .ok s) parts parts')
    (hmem : ∀ s ∈ parts', s ≠ [] → (s, false) ∈ stored) :
    legacyEncryptLoop K.siv [] path = .ok (join parts') ∧
      (mkNewStyle K threshold suffix).encryptFullPath path = .ok (dot :: eachAfterSlash parts', []) := by
  have hnew : ∀ v s, legacyEncryptSlice K.siv v = .ok s → (s ≠ [] → (s, false) ∈ stored) →
      (mkNewStyle K threshold suffix).encodeComponent v = .ok s ∧ v.length ≤ threshold := by
    intro v s h1 h2
    by_cases hv : v = []
    · subst hv
      injection h1 with h1
      subst h1
      exact ⟨rfl, Nat.zero_le _⟩
    · have hne : s ≠ [] := by
        unfold legacyEncryptSlice at h1
        rw [if_neg (by simpa using hv)] at h1
        split at h1
        · cases h1
        · exact encodeName_ne hS v s h1
      obtain ⟨_, h3, h4⟩ := C47_component K hS suffix stored threshold hm hlen v s hv h1 (h2 hne)
      exact ⟨h4, h3⟩
  have hall : ∀ parts parts' : List Bytes, List.Forall₂ (fun v s => legacyEncryptSlice K.siv v = .ok s) parts parts' →
      (∀ s ∈ parts', s ≠ [] → (s, false) ∈ stored) →
      (mkNewStyle K threshold suffix).encodeParts parts = .ok (eachAfterSlash parts') ∧ ∀ v ∈ parts, v.length ≤ threshold := by
    intro parts parts' h
    induction h with
    | nil => intro _; exact ⟨rfl, nofun⟩
    | @cons v s l l' h1 _ ih =>
      intro hmem
      obtain ⟨h2, h3⟩ := hnew v s h1 (hmem s List.mem_cons_self)
      obtain ⟨h4, h5⟩ := ih fun x hx => hmem x (List.mem_cons_of_mem _ hx)
      constructor
      · unfold NewStyle.encodeParts
        rw [h2, h4]
        rfl
      · intro x hx
        rcases List.mem_cons.mp hx with rfl | hx
        · exact h3
        · exact h5 x hx
  obtain ⟨h1, h2⟩ := hall parts parts' hold hmem
  constructor
  · rw [legacyEncryptLoop_eq, pieces_eq hp, overPieces_ok _ _ _ hold]
  · unfold NewStyle.encryptFullPath
    rw [pieces_eq hp, h1]
    dsimp only
    cases hlast : parts.getLast? with
    | none => rfl
    | some last =>
      dsimp only
      have : last ∈ parts := List.mem_of_getLast? hlast
      rw [if_neg (by have := h2 last this; show ¬ last.length > threshold; omega)]

/-- Listing: every stored name is shown as before. -/
theorem C47_listing_partial (K : NameKeys) (hS : K.siv.WF) (suffix : Bytes) (threshold : Nat) (hf : ForeignSuffix (mkNewStyle K threshold suffix))
    (v s : Bytes) (hv : v ≠ []) (hs : legacyEncryptSlice K.siv v = .ok s) :
    decodeName K.siv s = .ok (.name v) ∧ (mkNewStyle K threshold suffix).decryptComponent s = .ok (.name v) := by
  have henc : encodeName K.siv v = .ok s := by
    unfold legacyEncryptSlice at hs
    rw [if_neg (by simpa using hv)] at hs
    split at hs
    · cases hs
    · exact hs
  have hd := decodeName_encodeName hS v s hv henc
  refine ⟨hd, ?_⟩
  obtain ⟨s', _, _, h1, _, _, _, _, _, _, _, h2⟩ := encodeName_spec hS v
  rw [henc] at h1
  injection h1 with h1
  subst h1
  unfold NewStyle.decryptComponent
  rw [not_endsWith_of_foreign hf s h2]
  exact hd

/-- A suffix of base32 symbols, which the command accepts, hides existing names from the listing. -/
theorem C47_suffix_violated : ∃ (K : NameKeys) (suffix v s : Bytes) (stored : List (Bytes × Bool)) (threshold : Nat), K.siv.WF ∧ suffix ≠ [] ∧
    migrate stored = .ok threshold ∧ legacyEncryptSlice K.siv v = .ok s ∧ (s, false) ∈ stored ∧ decodeName K.siv s = .ok (.name v) ∧
    (mkNewStyle K threshold suffix).decryptComponent s = .ok .long := by
  obtain ⟨s, h1, h2⟩ := C21_legacy_round_trip Toy.siv Toy.siv_wf [97] (by decide) (by decide)
  have hne : s ≠ [] := by
    unfold legacyEncryptSlice at h1
    rw [if_neg (by decide), if_neg (by decide)] at h1
    exact encodeName_ne Toy.siv_wf _ _ h1
  refine ⟨Toy.names.toNameKeys, s, [97], s, [(s, false)], migrateThreshold (max 0 s.length) % 2 ^ 32, Toy.siv_wf, hne, rfl, h1,
    List.mem_singleton.mpr rfl, h2, ?_⟩
  refine if_pos ((endsWith_iff _ _).mpr ⟨[], ?_⟩)
  show s = if s.isEmpty then _ else s
  rw [if_neg (by simpa using hne)]

/-! ## Concrete cases -/

/-- The longest name that fits into 255 bytes has 143 bytes: its backing name has 255. -/
example : migrateThreshold 255 = 143 ∧ (8 * (143 + 16) + 4) / 5 = 255 ∧ migrateThreshold 230 = 127 ∧ migrateThreshold 229 = 128 := by decide

/-- A volume with a name of 143 bytes and the configuration file. -/
example : ∃ v s, v.length = 143 ∧ legacyEncryptSlice Toy.siv v = .ok s ∧ migrate [([46, 99], false), (s, false)] = .ok 143 := by
  obtain ⟨v, hv⟩ : ∃ v : Bytes, v.length = 143 := ⟨List.replicate 143 97, List.length_replicate⟩
  have hne : v ≠ [] := by rintro rfl; cases hv
  obtain ⟨s, h, _⟩ := C21_legacy_round_trip Toy.siv Toy.siv_wf v hne (by omega)
  refine ⟨v, s, hv, h, ?_⟩
  have henc : encodeName Toy.siv v = .ok s := by
    unfold legacyEncryptSlice at h
    rw [if_neg (by simpa using hne), if_neg (by omega)] at h
    exact h
  obtain ⟨s', _, _, h1, _, _, _, _, _, _, h2, _⟩ := encodeName_spec Toy.siv_wf v
  rw [henc] at h1
  injection h1 with h1
  have h3 : s.length = 255 := by rw [h1, h2, hv]
  show Except.ok (migrateThreshold (max (max 0 2) s.length) % 2 ^ 32) = _
  rw [h3]
  rfl

/-- With a symbolic link nothing is done. -/
example : migrate [([65], false), ([66], true)] = .error .invalidArg := rfl

end Securefs.Props

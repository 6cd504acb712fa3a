import Verif.Proofs.Names
/-!
# Properties C21 to C24: names and symbolic links of the lite format
-/

namespace Securefs.Props

open Securefs Spec

/-- A translator for the examples: names of more than five bytes are long, the suffix is `.ll`. -/
def Toy.names : NewStyle where
  siv := Toy.siv
  hash m := (m ++ zeros 32).take 32
  threshold := 5
  suffix := [46, 108, 108]

/-- The suffix has a character that is not a symbol of the base32 code.  True of the two suffixes the code itself
    uses, `...` and `.ll`; a suffix given on the command line is not checked. -/
def ForeignSuffix (T : NewStyle) : Prop := ∃ x ∈ T.suffix, x ∉ Spec.alphabet32

theorem Toy.names_foreign : ForeignSuffix Toy.names := ⟨46, by decide, by decide +kernel⟩

theorem not_endsWith_of_foreign {T : NewStyle} (h : ForeignSuffix T) (s : Bytes) (hs : ∀ x ∈ s, x ∈ Spec.alphabet32) :
    endsWith s T.suffix = false := by
  rw [Bool.eq_false_iff]
  intro e
  obtain ⟨p, rfl⟩ := (endsWith_iff _ _).mp e
  obtain ⟨x, hx, hx'⟩ := h
  exact hx' (hs x (List.mem_append_right _ hx))

/-! ## C21 -/

/-- C21: a component that is short enough to be stored inline is encrypted to a backing name that decrypts back to it.
    Partial: only for suffixes with a character foreign to the base32 code, see `C21_suffix_violated`. -/
theorem C21_inline_partial (T : NewStyle) (hS : T.siv.WF) (hf : ForeignSuffix T) (v : Bytes) (hv : v ≠ [])
    (hl : v.length ≤ T.threshold) : ∃ s, T.encodeComponent v = .ok s ∧ T.decryptComponent s = .ok (.name v) := by
  obtain ⟨s, c, w, h1, _, _, _, _, _, _, _, h9⟩ := encodeName_spec hS v
  refine ⟨s, by rw [encodeComponent_inline v hv hl, h1], ?_⟩
  unfold NewStyle.decryptComponent
  rw [not_endsWith_of_foreign hf s h9]
  exact decodeName_encodeName hS v s hv h1

example : ∃ s, Toy.names.encodeComponent [97, 98, 99] = .ok s ∧ Toy.names.decryptComponent s = .ok (.name [97, 98, 99]) :=
  C21_inline_partial _ Toy.siv_wf Toy.names_foreign _ (by decide) (by decide)

/-- C21: a component above the threshold is mapped to a backing name that carries the suffix and is taken for a long
    name. -/
theorem C21_long (T : NewStyle) (hS : T.siv.WF) (v : Bytes) (hl : T.threshold < v.length) :
    ∃ s pre, T.encodeComponent v = .ok s ∧ s = pre ++ T.suffix ∧ T.decryptComponent s = .ok .long := by
  obtain ⟨s, h1, h2⟩ := encodeComponent_long hS v hl
  refine ⟨_, s, h2, rfl, ?_⟩
  unfold NewStyle.decryptComponent
  rw [(endsWith_iff _ _).mpr ⟨s, rfl⟩]
  rfl

example : ∃ s pre, Toy.names.encodeComponent [97, 98, 99, 100, 101, 102] = .ok s ∧ s = pre ++ [46, 108, 108] ∧
    Toy.names.decryptComponent s = .ok .long := C21_long _ Toy.siv_wf _ (by decide)

/-- C21: what is recorded as the full encrypted name of the last component, which is done exactly if that component is
    long, decrypts back to it.  Partial for the same reason as `C21_inline_partial`. -/
theorem C21_recorded_partial (T : NewStyle) (hS : T.siv.WF) (hf : ForeignSuffix T) (path v : Bytes) (parts : List Bytes)
    (hp : PiecesOf path parts) (hv : parts.getLast? = some v) : ∃ b c, T.encryptFullPath path = .ok (b, c) ∧
      (v.length ≤ T.threshold → c = []) ∧ (T.threshold < v.length → c ≠ [] ∧ T.decryptComponent c = .ok (.name v)) := by
  obtain ⟨l', h1, _⟩ := encodeParts_spec hS parts
  unfold NewStyle.encryptFullPath
  rw [pieces_eq hp, h1, hv]
  dsimp only
  by_cases hl : v.length > T.threshold
  · rw [if_pos hl]
    obtain ⟨s, c, w, g1, _, _, _, _, _, _, _, g9⟩ := encodeName_spec hS v
    rw [g1]
    refine ⟨_, s, rfl, by omega, fun _ => ⟨encodeName_ne hS v s g1, ?_⟩⟩
    unfold NewStyle.decryptComponent
    rw [not_endsWith_of_foreign hf s g9]
    exact decodeName_encodeName hS v s (by intro e; subst e; simp at hl) g1
  · rw [if_neg hl]
    exact ⟨_, _, rfl, fun _ => rfl, by omega⟩

example : ∃ b c, Toy.names.encryptFullPath [47, 97, 47, 98, 98, 98, 98, 98, 98] = .ok (b, c) ∧
    Toy.names.decryptComponent c = .ok (.name [98, 98, 98, 98, 98, 98]) := by
  obtain ⟨b, c, h, _, h2⟩ := C21_recorded_partial Toy.names Toy.siv_wf Toy.names_foreign
    [47, 97, 47, 98, 98, 98, 98, 98, 98] [98, 98, 98, 98, 98, 98] [[], [97], [98, 98, 98, 98, 98, 98]]
    ⟨by decide, by decide, by decide⟩ rfl
  exact ⟨b, c, h, (h2 (by decide)).2⟩

/-- C21: two components that share a backing name are equal, or they are both long and the hash collides.  Partial for
    the same reason as `C21_inline_partial`. -/
theorem C21_injective_partial (T : NewStyle) (hS : T.siv.WF) (hf : ForeignSuffix T) (v v' s : Bytes)
    (h : T.encodeComponent v = .ok s) (h' : T.encodeComponent v' = .ok s) :
    v = v' ∨ (T.threshold < v.length ∧ T.threshold < v'.length ∧ T.hash v = T.hash v') := by
  have short : ∀ u, u.length ≤ T.threshold → T.encodeComponent u = .ok s → (∀ x ∈ s, x ∈ Spec.alphabet32) ∧
      (u = [] ∧ s = [] ∨ u ≠ [] ∧ encodeName T.siv u = .ok s) := by
    intro u hu hs
    by_cases hn : u = []
    · subst hn
      cases hs
      simp
    · rw [encodeComponent_inline u hn hu] at hs
      obtain ⟨s', _, _, g1, _, _, _, _, _, _, _, g9⟩ := encodeName_spec hS u
      rw [hs] at g1; cases g1
      exact ⟨g9, Or.inr ⟨hn, hs⟩⟩
  have long : ∀ u, T.threshold < u.length → T.encodeComponent u = .ok s → ∃ p, encodeName T.siv (T.hash u) = .ok p ∧
      s = p ++ T.suffix := by
    intro u hu hs
    obtain ⟨p, g1, g2⟩ := encodeComponent_long hS u hu
    rw [hs] at g2
    exact ⟨p, g1, Except.ok.inj g2⟩
  have mixed : ∀ u u', u.length ≤ T.threshold → T.encodeComponent u = .ok s → T.threshold < u'.length →
      T.encodeComponent u' = .ok s → False := by
    intro u u' hu hs hu' hs'
    obtain ⟨p, _, rfl⟩ := long u' hu' hs'
    have := not_endsWith_of_foreign hf _ (short u hu hs).1
    rw [(endsWith_iff _ _).mpr ⟨p, rfl⟩] at this
    cases this
  by_cases hl : v.length ≤ T.threshold
  · by_cases hl' : v'.length ≤ T.threshold
    · left
      rcases (short v hl h).2 with ⟨e, es⟩ | ⟨_, e⟩ <;> rcases (short v' hl' h').2 with ⟨e', es'⟩ | ⟨_, e'⟩
      · rw [e, e']
      · exact absurd es (encodeName_ne hS _ _ e')
      · exact absurd es' (encodeName_ne hS _ _ e)
      · exact encodeName_inj hS _ _ _ e e'
    · exact (mixed v v' hl h (by omega) h').elim
  · by_cases hl' : v'.length ≤ T.threshold
    · exact (mixed v' v hl' h' (by omega) h).elim
    · right
      obtain ⟨p, g1, g2⟩ := long v (by omega) h
      obtain ⟨p', g1', g2'⟩ := long v' (by omega) h'
      refine ⟨by omega, by omega, ?_⟩
      rw [g2] at g2'
      have := List.append_cancel_right g2'
      subst this
      exact encodeName_inj hS _ _ _ g1 g1'

/-- Both cases occur: `Toy.names` hashes by cutting, so long names with the same first 32 bytes collide. -/
example : Toy.names.encodeComponent (List.replicate 33 97) = Toy.names.encodeComponent (List.replicate 34 97) ∧
    Toy.names.encodeComponent [97] ≠ Toy.names.encodeComponent [98] := by
  constructor
  · decide +kernel
  · intro h
    obtain ⟨s, hs⟩ := encodeComponent_total (T := Toy.names) Toy.siv_wf [97]
    rcases C21_injective_partial Toy.names Toy.siv_wf Toy.names_foreign [97] [98] s hs (h ▸ hs) with e | ⟨e, _⟩
    · cases e
    · revert e; decide

/-- C21: two paths with the same backing path are equal, or a component of one and a component of the other are long and
    collide under the hash.  Partial for the same reason as `C21_inline_partial`; the suffix must also have no slash. -/
theorem C21_path_injective_partial (T : NewStyle) (hS : T.siv.WF) (hf : ForeignSuffix T) (hs : (47 : UInt8) ∉ T.suffix)
    (path path' b c c' : Bytes) (h : T.encryptFullPath path = .ok (b, c)) (h' : T.encryptFullPath path' = .ok (b, c')) :
    path = path' ∨ ∃ v v', v ≠ v' ∧ T.threshold < v.length ∧ T.threshold < v'.length ∧ T.hash v = T.hash v' := by
  have noslash : ∀ v s, T.encodeComponent v = .ok s → (47 : UInt8) ∉ s := by
    intro v s e
    by_cases hn : v = []
    · subst hn; cases e; simp
    · by_cases hl : v.length ≤ T.threshold
      · rw [encodeComponent_inline v hn hl] at e
        obtain ⟨s', _, _, g1, _, _, _, _, _, _, _, g9⟩ := encodeName_spec hS v
        rw [e] at g1; cases g1
        exact fun hx => slash_notin_alphabet (g9 _ hx)
      · obtain ⟨p, g1, g2⟩ := encodeComponent_long hS v (by omega)
        rw [e] at g2; cases g2
        obtain ⟨s', _, _, g1', _, _, _, _, _, _, _, g9⟩ := encodeName_spec hS (T.hash v)
        rw [g1] at g1'; cases g1'
        intro hx
        rcases List.mem_append.mp hx with hx | hx
        · exact slash_notin_alphabet (g9 _ hx)
        · exact hs hx
  have out : ∀ p b c, T.encryptFullPath p = .ok (b, c) → ∃ l, b = dot :: eachAfterSlash l ∧
      List.Forall₂ (fun v s => T.encodeComponent v = .ok s) (splitSlash [] p) l := by
    intro p b c e
    obtain ⟨l, g1, g2⟩ := encodeParts_spec hS (splitSlash [] p)
    unfold NewStyle.encryptFullPath at e
    rw [g1] at e
    refine ⟨l, ?_, g2⟩
    dsimp only at e
    split at e
    · cases e; rfl
    · split at e
      · split at e
        · cases e
        · cases e; rfl
      · cases e; rfl
  obtain ⟨l, rfl, g⟩ := out path b c h
  obtain ⟨l', e, g'⟩ := out path' _ c' h'
  have hne : l ≠ [] := by
    intro e; subst e
    generalize hsp : splitSlash [] path = x at g
    cases g
    exact splitSlash_ne path [] hsp
  have hne' : l' ≠ [] := by
    intro e; subst e
    generalize hsp : splitSlash [] path' = x at g'
    cases g'
    exact splitSlash_ne path' [] hsp
  have el : l = l' := by
    injection e with _ e
    rw [eachAfterSlash_eq l hne, eachAfterSlash_eq l' hne'] at e
    injection e with _ e
    have p1 := forall2_pieces g noslash (splitSlash_ne _ _)
    have p2 := forall2_pieces g' noslash (splitSlash_ne _ _)
    rw [← e] at p2
    exact pieces_unique p1 p2
  subst el
  obtain ⟨_, _, j1⟩ := splitSlash_spec path [] (by simp)
  obtain ⟨_, _, j2⟩ := splitSlash_spec path' [] (by simp)
  rw [List.nil_append] at j1 j2
  have key : ∀ (x x' y : List Bytes), List.Forall₂ (fun v s => T.encodeComponent v = .ok s) x y →
      List.Forall₂ (fun v s => T.encodeComponent v = .ok s) x' y →
      x = x' ∨ ∃ v v', v ≠ v' ∧ T.threshold < v.length ∧ T.threshold < v'.length ∧ T.hash v = T.hash v' := by
    intro x x' y hx
    induction hx generalizing x' with
    | nil => intro hx'; cases hx'; exact Or.inl rfl
    | @cons a s l1 l2 e1 _ ih =>
      intro hx'
      cases hx' with
      | @cons a' _ l1' _ e1' t' =>
        rcases ih _ t' with rfl | r
        · by_cases ea : a = a'
          · subst ea; exact Or.inl rfl
          · rcases C21_injective_partial T hS hf a a' s e1 e1' with r | r
            · exact absurd r ea
            · exact Or.inr ⟨a, a', ea, r⟩
        · exact Or.inr r
  rcases key _ _ _ g g' with e | r
  · left; rw [← j1, ← j2, e]
  · exact Or.inr r

/-- The hypotheses hold for two paths that only differ in which of two colliding names they use. -/
example : ∃ b c c', Toy.names.encryptFullPath (47 :: List.replicate 33 97) = .ok (b, c) ∧
    Toy.names.encryptFullPath (47 :: List.replicate 34 97) = .ok (b, c') ∧ (47 : UInt8) ∉ Toy.names.suffix := by
  have h1 : ∃ b c, Toy.names.encryptFullPath (47 :: List.replicate 33 97) = .ok (b, c) := by
    obtain ⟨b, c, h, _⟩ := C21_recorded_partial Toy.names Toy.siv_wf Toy.names_foreign (47 :: List.replicate 33 97)
      (List.replicate 33 97) [[], List.replicate 33 97] ⟨by decide, by decide, by decide⟩ rfl
    exact ⟨b, c, h⟩
  have h2 : ∃ b c, Toy.names.encryptFullPath (47 :: List.replicate 34 97) = .ok (b, c) := by
    obtain ⟨b, c, h, _⟩ := C21_recorded_partial Toy.names Toy.siv_wf Toy.names_foreign (47 :: List.replicate 34 97)
      (List.replicate 34 97) [[], List.replicate 34 97] ⟨by decide, by decide, by decide⟩ rfl
    exact ⟨b, c, h⟩
  obtain ⟨b, c, h1⟩ := h1
  obtain ⟨b', c', h2⟩ := h2
  have e : (Toy.names.encryptFullPath (47 :: List.replicate 33 97)).map Prod.fst =
      (Toy.names.encryptFullPath (47 :: List.replicate 34 97)).map Prod.fst := by decide +kernel
  rw [h1, h2] at e
  have : b = b' := Except.ok.inj e
  subst this
  exact ⟨b, c, c', h1, h2, by decide⟩

/-- C21 is violated for suffixes made of base32 symbols, which the command line accepts: there are a suffix and a
    short name such that the backing name of that name is taken for a long name, whose row is missing. -/
theorem C21_suffix_violated : ∃ (T : NewStyle) (v s : Bytes), T.siv.WF ∧ T.suffix ≠ [] ∧ v ≠ [] ∧ v.length ≤ T.threshold ∧
    T.encodeComponent v = .ok s ∧ T.decryptComponent s = .ok .long := by
  obtain ⟨s, h, _⟩ := C21_inline_partial Toy.names Toy.siv_wf Toy.names_foreign [97] (by decide) (by decide)
  rw [encodeComponent_inline _ (by decide) (by decide)] at h
  have ht : ([97] : Bytes).length ≤ Toy.names.threshold := by decide
  refine ⟨⟨Toy.names.toNameKeys, Toy.names.threshold, s⟩, [97], s, Toy.siv_wf, ?_, by decide, ht, ?_, ?_⟩
  · exact encodeName_ne Toy.siv_wf _ _ h
  · exact (encodeComponent_inline (T := ⟨Toy.names.toNameKeys, Toy.names.threshold, s⟩) [97] (by decide) ht).trans h
  · exact if_pos ((endsWith_iff s s).mpr ⟨[], rfl⟩)

/-- C21, legacy translator: every component is encrypted to a backing name that decrypts back to it. -/
theorem C21_legacy_round_trip (S : Siv) (hS : S.WF) (v : Bytes) (hv : v ≠ []) (hl : v.length ≤ 2000) :
    ∃ s, legacyEncryptSlice S v = .ok s ∧ decodeName S s = .ok (.name v) := by
  rcases legacyEncryptSlice_cases hS v with ⟨e, _⟩ | ⟨_, _, s, h1, h2⟩ | ⟨e, _⟩
  · exact absurd e hv
  · exact ⟨s, h2, decodeName_encodeName hS v s hv h1⟩
  · omega

example : ∃ s, legacyEncryptSlice Toy.siv [97, 98] = .ok s ∧ decodeName Toy.siv s = .ok (.name [97, 98]) :=
  C21_legacy_round_trip _ Toy.siv_wf _ (by decide) (by decide)

/-- The result of the loop of the legacy translator: either a component is over 2000 bytes, or every component is
    replaced. -/
theorem legacyLoop_out {S : Siv} (hS : S.WF) (path : Bytes) (parts : List Bytes) (hp : PiecesOf path parts)
    (hl : ∀ v ∈ parts, v.length ≤ 2000) : ∃ parts', legacyEncryptLoop S [] path = .ok (join parts') ∧
      List.Forall₂ (fun v s => legacyEncryptSlice S v = .ok s) parts parts' := by
  have : ∃ parts', List.Forall₂ (fun v s => legacyEncryptSlice S v = .ok s) parts parts' := by
    clear hp
    induction parts with
    | nil => exact ⟨[], .nil⟩
    | cons v l ih =>
      obtain ⟨l', h⟩ := ih (fun x hx => hl x (List.mem_cons_of_mem _ hx))
      rcases legacyEncryptSlice_cases hS v with ⟨_, e⟩ | ⟨_, _, s, _, e⟩ | ⟨e, _⟩
      · exact ⟨_ :: l', .cons e h⟩
      · exact ⟨_ :: l', .cons e h⟩
      · have := hl v List.mem_cons_self; omega
  obtain ⟨parts', h⟩ := this
  refine ⟨parts', ?_, h⟩
  rw [legacyEncryptLoop_eq, pieces_eq hp, overPieces_ok _ _ _ h]

theorem legacyLoop_inj {S : Siv} (hS : S.WF) (p p' b : Bytes) (h : legacyEncryptLoop S [] p = .ok b)
    (h' : legacyEncryptLoop S [] p' = .ok b) : p = p' := by
  have back : ∀ q, legacyEncryptLoop S [] q = .ok b → legacyDecryptLoop S [] b = .ok q := by
    intro q hq
    have hq0 := splitSlash_spec q [] (by simp)
    rw [List.nil_append] at hq0
    rw [legacyEncryptLoop_eq] at hq
    obtain ⟨l, g1, rfl⟩ := overPieces_inv _ _ _ hq
    have pc := forall2_pieces g1 (fun v s e => fun hx => slash_notin_alphabet ((legacySlice_noslash hS v s e).2 _ hx))
      (splitSlash_ne _ _)
    rw [legacyDecryptLoop_eq, pieces_eq pc, overPieces_ok _ _ (splitSlash [] q)]
    · rw [hq0.2.2]
    · clear hq hq0 pc h h'
      generalize splitSlash [] q = ps at g1 ⊢
      induction g1 with
      | nil => exact .nil
      | cons e _ ih => exact .cons (legacySlice_round hS _ _ e) ih
  have := back p h
  rw [back p' h'] at this
  exact (Except.ok.inj this).symm

theorem alphabet_head_ne {S : Siv} (hS : S.WF) (path : Bytes) (b : Bytes) (h : legacyEncryptLoop S [] path = .ok b) :
    ∀ x ∈ b, x = slash ∨ x ∈ Spec.alphabet32 := by
  rw [legacyEncryptLoop_eq] at h
  obtain ⟨l, g1, rfl⟩ := overPieces_inv _ _ _ h
  clear h
  generalize splitSlash [] path = ps at g1
  induction g1 with
  | nil => simp [join]
  | @cons v s l1 l2 e g2 ih =>
    cases hl2 : l2 with
    | nil => simp only [join]; exact fun x hx => Or.inr ((legacySlice_noslash hS v s e).2 x hx)
    | cons q r =>
      rw [← hl2, join_cons_of_ne _ _ (by simp [hl2])]
      intro x hx
      rcases List.mem_append.mp hx with hx | hx
      · exact Or.inr ((legacySlice_noslash hS v s e).2 x hx)
      · rcases List.mem_cons.mp hx with rfl | hx
        · exact Or.inl rfl
        · exact ih x hx

theorem legacyLoop_slash {S : Siv} (rest b : Bytes) (h : legacyEncryptLoop S [] (47 :: rest) = .ok b) :
    ∃ r, b = slash :: r ∧ legacyEncryptLoop S [] rest = .ok r := by
  unfold legacyEncryptLoop at h
  rw [if_pos (show (47 : UInt8) = slash from rfl)] at h
  cases h2 : legacyEncryptLoop S [] rest with
  | error e => rw [h2] at h; cases h
  | ok r =>
    rw [h2] at h
    cases h
    exact ⟨r, rfl, rfl⟩

/-- C21, legacy translator: two absolute paths with the same backing path are equal. -/
theorem C21_legacy_path_injective (S : Siv) (hS : S.WF) (rest rest' b : Bytes)
    (h : legacyEncryptFullPath S (47 :: rest) = .ok b) (h' : legacyEncryptFullPath S (47 :: rest') = .ok b) : rest = rest' := by
  have out : ∀ r, legacyEncryptFullPath S (47 :: r) = .ok b → (r = [] ∧ b = [dot]) ∨ (legacyEncryptLoop S [] r = .ok b) := by
    intro r e
    unfold legacyEncryptFullPath at e
    rw [if_neg (by simp)] at e
    by_cases hr : r = []
    · subst hr
      left
      rw [if_pos (by decide)] at e
      exact ⟨rfl, (Except.ok.inj e).symm⟩
    · right
      rw [if_neg (by simp [slash, hr])] at e
      cases h1 : legacyEncryptLoop S [] (47 :: r) with
      | error x => rw [h1] at e; cases e
      | ok s =>
        rw [h1] at e
        obtain ⟨t, rfl, h2⟩ := legacyLoop_slash r s h1
        cases e
        exact h2
  have nodot : ∀ r, legacyEncryptLoop S [] r = .ok [dot] → False := by
    intro r e
    rcases alphabet_head_ne hS r _ e dot (by simp) with e | e
    · revert e; decide
    · exact dot_notin_alphabet e
  rcases out rest h with ⟨e, eb⟩ | e <;> rcases out rest' h' with ⟨e', eb'⟩ | e'
  · rw [e, e']
  · subst eb; exact (nodot _ e').elim
  · subst eb'; exact (nodot _ e).elim
  · exact legacyLoop_inj hS _ _ _ e e'

example : ∃ b, legacyEncryptFullPath Toy.siv [47, 97, 47, 98] = .ok b ∧ b ≠ [] := by
  obtain ⟨l, h, _⟩ := legacyLoop_out Toy.siv_wf [97, 47, 98] [[97], [98]] ⟨by decide, by decide, rfl⟩ (by decide)
  have hb : legacyEncryptLoop Toy.siv [] [47, 97, 47, 98] = .ok (slash :: join l) := by
    rw [legacyEncryptLoop, if_pos (show (47 : UInt8) = slash from rfl), h]; rfl
  refine ⟨join l, ?_, ?_⟩
  · unfold legacyEncryptFullPath
    rw [if_neg (by decide), if_neg (by decide), hb]
    rfl
  · intro e
    rw [e] at h
    have := legacyLoop_inj Toy.siv_wf [97, 47, 98] [] [] h rfl
    cases this

/-! ## C22 -/

/-- C22: the backing name of a component is not empty, does not begin with a dot and is not `.` or `..`.  Stored inline, it
    has no slash, NUL or dot, and is at most 255 bytes long exactly if the component is at most 143 bytes; stored
    by hash, the same holds without the suffix, and it is at most 255 bytes long exactly if the suffix is at most 178
    bytes. -/
theorem C22_legal (T : NewStyle) (hS : T.siv.WF) (hh : ∀ m, (T.hash m).length = 32) (v : Bytes) (hv : v ≠ []) :
    ∃ s, T.encodeComponent v = .ok s ∧ s ≠ [] ∧ s.head? ≠ some 46 ∧ s ≠ [46] ∧ s ≠ [46, 46] ∧
      (v.length ≤ T.threshold → (∀ x ∈ s, x ≠ 47 ∧ x ≠ 0 ∧ x ≠ 46) ∧ (s.length ≤ 255 ↔ v.length ≤ 143)) ∧
      (T.threshold < v.length → ∃ pre, s = pre ++ T.suffix ∧ (∀ x ∈ pre, x ≠ 47 ∧ x ≠ 0 ∧ x ≠ 46) ∧
        (s.length ≤ 255 ↔ T.suffix.length ≤ 178)) := by
  have alph : ∀ x ∈ Spec.alphabet32, x ≠ 47 ∧ x ≠ 0 ∧ x ≠ 46 := by decide +kernel
  have head : ∀ s t : Bytes, s ≠ [] → (∀ x ∈ s, x ∈ Spec.alphabet32) → s ++ t ≠ [] ∧ (s ++ t).head? ≠ some 46 ∧ s ++ t ≠ [46] ∧
      s ++ t ≠ [46, 46] := by
    intro s t hs ha
    cases s with
    | nil => exact absurd rfl hs
    | cons x r =>
      have := (alph x (ha x List.mem_cons_self)).2.2
      simp [this]
  by_cases hl : v.length ≤ T.threshold
  · obtain ⟨s, c, w, h1, _, _, _, _, _, _, h8, h9⟩ := encodeName_spec hS v
    have hd := head s [] (encodeName_ne hS v s h1) h9
    rw [List.append_nil] at hd
    refine ⟨s, by rw [encodeComponent_inline v hv hl, h1], hd.1, hd.2.1, hd.2.2.1, hd.2.2.2, fun _ => ⟨fun x hx => alph x (h9 x hx), ?_⟩,
      fun e => by omega⟩
    rw [h8]; omega
  · obtain ⟨s, h1, h2⟩ := encodeComponent_long hS v (by omega)
    obtain ⟨s', c, w, g1, _, _, _, _, _, _, g8, g9⟩ := encodeName_spec hS (T.hash v)
    rw [h1] at g1; cases g1
    have hd := head s T.suffix (encodeName_ne hS _ s h1) g9
    refine ⟨_, h2, hd.1, hd.2.1, hd.2.2.1, hd.2.2.2, fun e => by omega, fun _ => ⟨s, rfl, fun x hx => alph x (g9 x hx), ?_⟩⟩
    rw [List.length_append, g8, hh]
    omega

/-- A short and a long component of the example translator. -/
example : (∃ s, Toy.names.encodeComponent [46] = .ok s ∧ s.length ≤ 255) ∧
    (∃ s, Toy.names.encodeComponent (List.replicate 300 97) = .ok s ∧ s.length ≤ 255) := by
  have hh : ∀ m, (Toy.names.hash m).length = 32 := by intro m; simp [Toy.names, zeros]
  constructor
  · obtain ⟨s, h1, _, _, _, _, h2, _⟩ := C22_legal Toy.names Toy.siv_wf hh [46] (by decide)
    exact ⟨s, h1, (h2 (by decide)).2.mpr (by decide)⟩
  · obtain ⟨s, h1, _, _, _, _, _, h3⟩ := C22_legal Toy.names Toy.siv_wf hh (List.replicate 300 97) (by rw [Ne, List.replicate_eq_nil_iff]; decide)
    obtain ⟨_, _, _, h4⟩ := h3 (by rw [List.length_replicate]; decide)
    exact ⟨s, h1, h4.mpr (by decide)⟩

/-- C22: the backing path is `.` and then, component by component and in order, the backing names; empty components stay
    empty.  `encodeComponent` is a function of the component alone, so files in one directory stay in one directory. -/
theorem C22_structure (T : NewStyle) (hS : T.siv.WF) (path : Bytes) (parts : List Bytes) (hp : PiecesOf path parts) :
    ∃ parts' c, T.encryptFullPath path = .ok (46 :: eachAfterSlash parts', c) ∧
      List.Forall₂ (fun v s => T.encodeComponent v = .ok s ∧ (v = [] → s = [])) parts parts' := by
  obtain ⟨l', h1, h2⟩ := encodeParts_spec hS parts
  have h3 : List.Forall₂ (fun v s => T.encodeComponent v = .ok s ∧ (v = [] → s = [])) parts l' := by
    clear h1 hp
    induction h2 with
    | nil => exact .nil
    | cons e _ ih => exact .cons ⟨e, fun hv => by subst hv; exact (Except.ok.inj e).symm⟩ ih
  unfold NewStyle.encryptFullPath
  rw [pieces_eq hp, h1]
  dsimp only
  split
  · exact ⟨l', _, rfl, h3⟩
  · split
    · obtain ⟨s, _, _, g1, _⟩ := encodeName_spec hS ‹Bytes›
      rw [g1]
      exact ⟨l', _, rfl, h3⟩
    · exact ⟨l', _, rfl, h3⟩

example : PiecesOf [47, 97, 47, 98] [[], [97], [98]] := ⟨by decide, by decide, rfl⟩

/-- C22: if the suffix has no slash, the pieces of the backing path are `.` and the backing names. -/
theorem C22_pieces (T : NewStyle) (hS : T.siv.WF) (hh : ∀ m, (T.hash m).length = 32) (hs : (47 : UInt8) ∉ T.suffix) (path : Bytes)
    (parts : List Bytes) (hp : PiecesOf path parts) : ∃ b c parts', T.encryptFullPath path = .ok (b, c) ∧
      PiecesOf b ([46] :: parts') ∧ List.Forall₂ (fun v s => T.encodeComponent v = .ok s) parts parts' := by
  obtain ⟨l, c, h1, h2⟩ := C22_structure T hS path parts hp
  refine ⟨_, c, l, h1, ?_, forall2_imp (fun _ _ h => h.1) h2⟩
  have p := forall2_pieces h2 (fun v s ⟨e, e0⟩ => by
    by_cases hv : v = []
    · rw [e0 hv]; simp
    · obtain ⟨s', g1, _, _, _, _, g2, g3⟩ := C22_legal T hS hh v hv
      rw [e] at g1; cases g1
      intro hx
      by_cases hl : v.length ≤ T.threshold
      · exact ((g2 hl).1 _ hx).1 rfl
      · obtain ⟨pre, rfl, g4, _⟩ := g3 (by omega)
        rcases List.mem_append.mp hx with hx | hx
        · exact (g4 _ hx).1 rfl
        · exact hs hx) hp.1
  refine ⟨by simp, ?_, ?_⟩
  · intro x hx
    rcases List.mem_cons.mp hx with rfl | hx
    · decide
    · exact p.2.1 x hx
  · rw [join_cons_of_ne _ _ p.1, eachAfterSlash_eq _ p.1]
    rfl

example : (47 : UInt8) ∉ Toy.names.suffix ∧ ∀ m, (Toy.names.hash m).length = 32 :=
  ⟨by decide, by intro m; simp [Toy.names, zeros]⟩

/-- C22, legacy translator: the same for components of at most 2000 bytes; the leading slash is dropped.  The backing name is
    at most 255 bytes long exactly if the component is at most 143 bytes. -/
theorem C22_legacy (S : Siv) (hS : S.WF) (rest : Bytes) (parts : List Bytes) (hp : PiecesOf rest parts) (hr : rest ≠ [])
    (hl : ∀ v ∈ parts, v.length ≤ 2000) : ∃ b parts', legacyEncryptFullPath S (47 :: rest) = .ok b ∧ PiecesOf b parts' ∧
      List.Forall₂ (fun v s => (v = [] ↔ s = []) ∧ (∀ x ∈ s, x ≠ 47 ∧ x ≠ 0 ∧ x ≠ 46) ∧ (s.length ≤ 255 ↔ v.length ≤ 143)) parts parts' := by
  obtain ⟨l, h1, h2⟩ := legacyLoop_out hS rest parts hp hl
  have alph : ∀ x ∈ Spec.alphabet32, x ≠ 47 ∧ x ≠ 0 ∧ x ≠ 46 := by decide +kernel
  have hb : legacyEncryptLoop S [] (47 :: rest) = .ok (slash :: join l) := by
    rw [legacyEncryptLoop, if_pos (show (47 : UInt8) = slash from rfl), h1]; rfl
  refine ⟨join l, l, ?_, forall2_pieces h2 (fun v s e => fun hx => slash_notin_alphabet ((legacySlice_noslash hS v s e).2 _ hx)) hp.1,
    forall2_imp ?_ h2⟩
  · unfold legacyEncryptFullPath
    rw [if_neg (by simp), if_neg (by simp [slash, hr]), hb]
    rfl
  · intro v s e
    obtain ⟨g1, g2⟩ := legacySlice_noslash hS v s e
    refine ⟨g1, fun x hx => alph x (g2 x hx), ?_⟩
    rcases legacyEncryptSlice_cases hS v with ⟨rfl, k⟩ | ⟨_, _, s', k1, k2⟩ | ⟨_, k⟩
    · rw [e] at k; cases k; simp
    · rw [e] at k2; cases k2
      obtain ⟨s', _, _, m1, _, _, _, _, _, _, m8, _⟩ := encodeName_spec hS v
      rw [k1] at m1; cases m1
      omega
    · rw [e] at k; cases k

example : PiecesOf [97, 47, 98] [[97], [98]] ∧ ∀ v ∈ ([[97], [98]] : List Bytes), v.length ≤ 2000 :=
  ⟨⟨by decide, by decide, rfl⟩, by decide⟩

/-! ## C23 -/

/-- C23: the target of a symbolic link is read back as given, whatever slashes it has; the stored form consists of pieces of
    at most 96 bytes, each after a slash. -/
theorem C23_round_trip (T : NewStyle) (hS : T.siv.WF) (target : Bytes) : ∃ s parts, T.encryptSymlink target = .ok s ∧
    T.decryptSymlink s = .ok target ∧ s = eachAfterSlash parts ∧ (∀ p ∈ parts, p ≠ [] ∧ p.length ≤ 96 ∧ ∀ x ∈ p, x ∈ Spec.alphabet32) ∧
    (target ≠ [] → s.length = (8 * (target.length + 16) + 4) / 5 + (target.length + 75) / 60) := by
  by_cases ht : target = []
  · subst ht
    exact ⟨[], [], rfl, rfl, rfl, by simp, by simp⟩
  · have hpos := List.length_pos_iff.mpr ht
    obtain ⟨c, v, h1, h2, h3, h4⟩ := C16_round_trip T.siv hS target []
    obtain ⟨l, s, g1, g2, g3, g4, g5, g6⟩ := symlinkChunks_spec (v ++ c).length (v ++ c) (le_refl _)
    obtain ⟨s', k1, k2⟩ := C15_round_trip (v ++ c)
    rw [g3] at k1; cases k1
    obtain ⟨s', k1, k3, _⟩ := C15_encode_exact (v ++ c)
    rw [g3] at k1; cases k1
    rw [List.length_append, h2, h3] at k3 g6
    refine ⟨eachAfterSlash l, l, ?_, ?_, rfl, g2, fun _ => ?_⟩
    · unfold NewStyle.encryptSymlink
      rw [if_neg (by simpa using ht), h1]
      exact g1
    · unfold NewStyle.decryptSymlink
      have hne : eachAfterSlash l ≠ [] := by
        intro e
        rw [e] at g5
        simp only [List.length_nil] at g5
        omega
      rw [if_neg (by simpa using hne), g4, k2]
      simp only [List.length_append, kSivSize]
      rw [if_neg (by omega), ← h3, List.drop_left, List.take_left, h4]
      rfl
    · rw [g5, g6, k3, Nat.add_comm 16 target.length]

/-- An absolute target with repeated slashes. -/
example : ∃ s, Toy.names.encryptSymlink [47, 47, 97, 47] = .ok s ∧ Toy.names.decryptSymlink s = .ok [47, 47, 97, 47] := by
  obtain ⟨s, _, h1, h2, _⟩ := C23_round_trip Toy.names Toy.siv_wf [47, 47, 97, 47]
  exact ⟨s, h1, h2⟩

/-- C23, legacy translator: the target is read back as given if no component is over 2000 bytes; otherwise it is refused with
    `ENAMETOOLONG`. -/
theorem C23_legacy_round_trip (S : Siv) (hS : S.WF) (target : Bytes) (parts : List Bytes) (hp : PiecesOf target parts) :
    ((∀ v ∈ parts, v.length ≤ 2000) → ∃ s, legacyEncryptSymlink S target = .ok s ∧ legacyDecryptSymlink S s = .ok target) ∧
    ((∃ v ∈ parts, 2000 < v.length) → legacyEncryptSymlink S target = .error (.vfs 36)) := by
  constructor
  · intro hl
    unfold legacyEncryptSymlink
    by_cases h0 : target = []
    · subst h0; exact ⟨[], rfl, rfl⟩
    rw [if_neg (by simpa using h0)]
    by_cases h1 : target = [slash]
    · subst h1
      exact ⟨[dot], rfl, rfl⟩
    rw [if_neg (by simpa using h1)]
    obtain ⟨l, g1, g2⟩ := legacyLoop_out hS target parts hp hl
    refine ⟨_, g1, ?_⟩
    have pc := forall2_pieces g2 (fun v s e => fun hx => slash_notin_alphabet ((legacySlice_noslash hS v s e).2 _ hx)) hp.1
    have hdec : legacyDecryptLoop S [] (join l) = .ok target := by
      rw [legacyDecryptLoop_eq, pieces_eq pc, overPieces_ok _ _ parts]
      · rw [hp.2.2]
      · clear g1 pc hp hl
        induction g2 with
        | nil => exact .nil
        | cons e _ ih => exact .cons (legacySlice_round hS _ _ e) ih
    unfold legacyDecryptSymlink
    by_cases hj : join l = []
    · rw [hj] at hdec
      have : legacyDecryptLoop S [] [] = .ok [] := rfl
      rw [this] at hdec
      exact absurd (Except.ok.inj hdec).symm h0
    · rw [if_neg (by simpa using hj), if_neg, hdec]
      intro e
      rw [beq_iff_eq] at e
      rcases alphabet_head_ne hS _ _ g1 dot (by rw [e]; simp) with e | e
      · revert e; decide
      · exact dot_notin_alphabet e
  · rintro ⟨v, hv, hvl⟩
    have hlong : v.length ≤ target.length := by
      rw [← hp.2.2]
      have : ∀ l : List Bytes, ∀ x ∈ l, x.length ≤ (join l).length := by
        intro l
        induction l with
        | nil => intro x hx; cases hx
        | cons p r ih =>
          intro x hx
          cases r with
          | nil =>
            rcases List.mem_cons.mp hx with rfl | hx
            · exact le_refl _
            · cases hx
          | cons q r =>
            rw [join, List.length_append, List.length_cons]
            rcases List.mem_cons.mp hx with rfl | hx
            · omega
            · have := ih x hx
              omega
      exact this _ v hv
    unfold legacyEncryptSymlink
    rw [if_neg, if_neg, legacyEncryptLoop_eq, pieces_eq hp]
    · clear hp hlong
      induction parts with
      | nil => cases hv
      | cons p l ih =>
        have hlong : legacyEncryptSlice S v = .error (.vfs eNameTooLong) := by
          rcases legacyEncryptSlice_cases hS v with ⟨e, _⟩ | ⟨_, e, _⟩ | ⟨_, e⟩
          · subst e; simp at hvl
          · omega
          · exact e
        cases hl : l with
        | nil =>
          subst hl
          rcases List.mem_cons.mp hv with rfl | hv
          · exact hlong
          · cases hv
        | cons q r =>
          rw [← hl, overPieces_cons _ _ _ (by simp [hl])]
          rcases List.mem_cons.mp hv with rfl | hv
          · rw [hlong]; rfl
          · rcases legacyEncryptSlice_cases hS p with ⟨_, e⟩ | ⟨_, _, s, _, e⟩ | ⟨_, e⟩
            · rw [e, ih hv]
            · rw [e, ih hv]
            · rw [e]; rfl
    · intro e
      rw [beq_iff_eq] at e
      rw [e] at hlong
      simp only [List.length_singleton] at hlong
      omega
    · intro e
      rw [List.isEmpty_iff] at e
      rw [e] at hlong
      simp only [List.length_nil] at hlong
      omega

/-- Absolute targets, repeated slashes and the root itself. -/
example : (∃ s, legacyEncryptSymlink Toy.siv [47, 47, 97, 47] = .ok s ∧ legacyDecryptSymlink Toy.siv s = .ok [47, 47, 97, 47]) ∧
    (∃ s, legacyEncryptSymlink Toy.siv [47] = .ok s ∧ legacyDecryptSymlink Toy.siv s = .ok [47]) :=
  ⟨(C23_legacy_round_trip _ Toy.siv_wf _ [[], [], [97], []] ⟨by decide, by decide, rfl⟩).1 (by decide),
   (C23_legacy_round_trip _ Toy.siv_wf _ [[], []] ⟨by decide, by decide, rfl⟩).1 (by decide)⟩

/-! ## C24 -/

/-- C24: decoding any backing name with the new translator ends with a name, with the verdict that it is long or invalid, or with
    one of two exceptions; it never leaves the buffers.  A name is only ever returned if the bytes spelled by the backing name are
    the encryption of that name. -/
theorem C24_component (T : NewStyle) (hS : T.siv.WF) (p : Bytes) :
    T.decryptComponent p = .ok .invalid ∨ (T.decryptComponent p = .ok .long ∧ ∃ pre, p = pre ++ T.suffix) ∨
    (∃ n c v, n ≠ [] ∧ T.decryptComponent p = .ok (.name n) ∧ base32Decode p = .ok (v ++ c) ∧ v.length = 16 ∧
      T.siv.encrypt n [] = .ok (c, v)) ∨
    T.decryptComponent p = .error .invalidArg ∨ T.decryptComponent p = .error .outOfRange := by
  unfold NewStyle.decryptComponent
  by_cases h : endsWith p T.suffix = true
  · rw [if_pos h]; exact Or.inr (Or.inl ⟨rfl, (endsWith_iff _ _).mp h⟩)
  · rw [if_neg h]
    rcases decodeName_total hS p with h | h | h | h
    · exact Or.inl h
    · exact Or.inr (Or.inr (Or.inl h))
    · exact Or.inr (Or.inr (Or.inr (Or.inl h)))
    · exact Or.inr (Or.inr (Or.inr (Or.inr h)))

/-- All outcomes but a name (for which see `C21_inline_partial`). -/
example : Toy.names.decryptComponent [65, 65] = .ok .invalid ∧ Toy.names.decryptComponent [65, 46, 108, 108] = .ok .long ∧
    Toy.names.decryptComponent [33] = .error .invalidArg := by decide +kernel

/-- C24: the same for the legacy translator. -/
theorem C24_legacy_component (S : Siv) (hS : S.WF) (p : Bytes) : decodeName S p = .ok .invalid ∨
    (∃ n c v, n ≠ [] ∧ decodeName S p = .ok (.name n) ∧ base32Decode p = .ok (v ++ c) ∧ v.length = 16 ∧
      S.encrypt n [] = .ok (c, v)) ∨
    decodeName S p = .error .invalidArg ∨ decodeName S p = .error .outOfRange := decodeName_total hS p

example : decodeName Toy.siv [65, 65] = .ok .invalid ∧ decodeName Toy.siv [33] = .error .invalidArg := by decide +kernel

/-- C24: decoding any symbolic-link target with the new translator yields a target or one of three exceptions.  A nonempty target
    is only ever returned if the stored bytes, slashes aside, spell its encryption. -/
theorem C24_symlink (T : NewStyle) (hS : T.siv.WF) (p : Bytes) : T.decryptSymlink p = .ok [] ∨
    (∃ t c v, t ≠ [] ∧ T.decryptSymlink p = .ok t ∧ base32Decode (p.filter (· != 47)) = .ok (v ++ c) ∧ v.length = 16 ∧
      T.siv.encrypt t [] = .ok (c, v)) ∨
    T.decryptSymlink p = .error .invalidArg ∨ T.decryptSymlink p = .error .outOfRange ∨ T.decryptSymlink p = .error .badName := by
  unfold NewStyle.decryptSymlink
  by_cases h0 : p = []
  · subst h0; exact Or.inl rfl
  rw [if_neg (by simpa using h0)]
  simp only [slash]
  rcases C15_decode_safe (p.filter (· != 47)) with ⟨d, h, _⟩ | h | h
  · rw [h]
    dsimp only
    by_cases hl : d.length ≤ kSivSize
    · rw [if_pos hl]; exact Or.inl rfl
    · rw [if_neg hl]
      simp only [kSivSize] at hl ⊢
      obtain ⟨ok, m, g1, g2, g3⟩ := C16_accepts_only_encryptions T.siv hS (d.drop 16) [] (d.take 16) (by simp; omega)
      rw [g1]
      cases ok with
      | false => exact Or.inr (Or.inr (Or.inr (Or.inr rfl)))
      | true =>
        refine Or.inr (Or.inl ⟨m, _, _, ?_, rfl, ?_, by simp; omega, g3.mp rfl⟩)
        · intro e; subst e; simp at g2; omega
        · rw [List.take_append_drop]
  · rw [h]; exact Or.inr (Or.inr (Or.inl rfl))
  · rw [h]; exact Or.inr (Or.inr (Or.inr (Or.inl rfl)))

example : Toy.names.decryptSymlink [65, 65] = .ok [] ∧ Toy.names.decryptSymlink (List.replicate 32 65) = .error .badName := by
  decide +kernel

theorem legacyDecryptSlice_safe {S : Siv} (hS : S.WF) (p : Bytes) (hl : p = [] ∨ 26 ≤ p.length) : (∃ t, legacyDecryptSlice S p = .ok t) ∨
    ∃ e, legacyDecryptSlice S p = .error e ∧ (e = .invalidArg ∨ e = .outOfRange ∨ e = .badName ∨ e = .vfs 36) := by
  unfold legacyDecryptSlice
  by_cases h0 : p = []
  · subst h0; exact Or.inl ⟨[], rfl⟩
  have hl : 26 ≤ p.length := by rcases hl with h | h; exact absurd h h0; exact h
  rw [if_neg (by simpa using h0)]
  rcases C15_decode_safe p with ⟨d, h, hd⟩ | h | h
  · rw [h]
    dsimp only
    by_cases h1 : d.length ≥ 2032
    · rw [if_pos h1]; exact Or.inr ⟨_, rfl, by simp [eNameTooLong]⟩
    rw [if_neg h1, if_neg (show ¬ d.length < kSivSize by unfold kSivSize; omega), show kSivSize = 16 from rfl]
    obtain ⟨ok, m, g1, g2, g3⟩ := C16_accepts_only_encryptions S hS (d.drop 16) [] (d.take 16) (by simp; omega)
    rw [g1]
    cases ok with
    | false => exact Or.inr ⟨_, rfl, by simp⟩
    | true => exact Or.inl ⟨m, rfl⟩
  · rw [h]; exact Or.inr ⟨_, rfl, by simp⟩
  · rw [h]; exact Or.inr ⟨_, rfl, by simp⟩

/-- C24, symbolic links of the legacy translator: safe if every nonempty piece of the stored target has at least 26 bytes.  Partial: for
    shorter pieces it is false, see `C24_legacy_symlink_violated`. -/
theorem C24_legacy_symlink_partial (S : Siv) (hS : S.WF) (p : Bytes) (parts : List Bytes) (hp : PiecesOf p parts)
    (hl : ∀ v ∈ parts, v = [] ∨ 26 ≤ v.length) : (∃ t, legacyDecryptSymlink S p = .ok t) ∨
    ∃ e, legacyDecryptSymlink S p = .error e ∧ (e = .invalidArg ∨ e = .outOfRange ∨ e = .badName ∨ e = .vfs 36) := by
  unfold legacyDecryptSymlink
  split
  · exact Or.inl ⟨_, rfl⟩
  · split
    · exact Or.inl ⟨_, rfl⟩
    · rw [legacyDecryptLoop_eq, pieces_eq hp]
      clear hp
      induction parts with
      | nil => exact Or.inl ⟨_, rfl⟩
      | cons v l ih =>
        have hv := legacyDecryptSlice_safe hS v (hl v List.mem_cons_self)
        cases hl' : l with
        | nil => exact hv
        | cons q r =>
          rw [← hl', overPieces_cons _ _ _ (by simp [hl'])]
          rcases hv with ⟨t, e⟩ | ⟨e, he, h⟩
          · rw [e]
            rcases ih (fun x hx => hl x (List.mem_cons_of_mem _ hx)) with ⟨t', e'⟩ | ⟨e', he', h'⟩
            · rw [e']; exact Or.inl ⟨_, rfl⟩
            · rw [he']; exact Or.inr ⟨e', rfl, h'⟩
          · rw [he]; exact Or.inr ⟨e, rfl, h⟩

example : PiecesOf (47 :: List.replicate 26 65) [[], List.replicate 26 65] ∧
    legacyDecryptSymlink Toy.siv (47 :: List.replicate 26 65) = .error .badName :=
  ⟨⟨by decide, by decide, by decide⟩, by decide +kernel⟩

/-- C24 is violated: a stored target of one piece that spells fewer than sixteen bytes makes the legacy translator read outside its
    buffer, for every key.  Two letters `A` are an instance. -/
theorem C24_legacy_symlink_violated (S : Siv) (p d : Bytes) (hp : p ≠ []) (hs : (47 : UInt8) ∉ p) (hd : base32Decode p = .ok d)
    (hl : d.length < 16) : legacyDecryptSymlink S p = .error .outOfBounds := by
  unfold legacyDecryptSymlink
  rw [if_neg (by simpa using hp), if_neg, legacyDecryptLoop_eq, splitSlash_noslash p [] hs]
  · show legacyDecryptSlice S ([] ++ p) = _
    rw [List.nil_append]
    unfold legacyDecryptSlice
    rw [if_neg (by simpa using hp), hd]
    dsimp only
    rw [if_neg (by omega), if_pos (show d.length < kSivSize from hl)]
  · intro e
    rw [beq_iff_eq] at e
    subst e
    have : base32Decode [dot] = .error .invalidArg := by decide +kernel
    rw [this] at hd
    cases hd

example : base32Decode [65, 65] = .ok [0] := by decide +kernel

end Securefs.Props

import Verif.Proofs.LiteVolumeFiles
import Verif.Props.Names
import Mathlib.Data.List.TakeWhile
/-!
# The name translators as schemes

The three name translators of the lite format meet what the proofs about the volume ask of a translator.
-/

namespace Securefs.Props

open Securefs.Spec

/-- The name a component has in the backing directory; empty where the translator refuses. -/
def okOr (r : Res Bytes) : Bytes :=
  match r with
  | .ok s => s
  | .error _ => []

/-! ## Pieces of paths -/

theorem pieces_fuse (cs : List Bytes) (hs : ∀ c ∈ cs, (47 : UInt8) ∉ c) :
    PiecesOf (fusePath cs) ([] :: if cs.isEmpty then [[]] else cs) := by
  unfold fusePath
  cases cs with
  | nil => exact ⟨by simp, by simp, rfl⟩
  | cons c r =>
    refine ⟨by simp, ?_, ?_⟩
    · intro p hp
      simp only [List.isEmpty_cons, Bool.false_eq_true, if_false, List.mem_cons] at hp
      rcases hp with rfl | rfl | hp
      · simp
      · exact hs _ (by simp)
      · exact hs _ (List.mem_cons_of_mem _ hp)
    · have : ∀ l : List Bytes, eachAfterSlash l = l.flatMap (slash :: ·) := by
        intro l
        induction l with
        | nil => rfl
        | cons p l ih => rw [eachAfterSlash, ih]; rfl
      simp only [List.isEmpty_cons, Bool.false_eq_true, if_false]
      rw [join_cons_of_ne _ _ (by simp), ← this, eachAfterSlash_eq _ (by simp)]
      rfl

theorem fuse_cons (c : Bytes) (r : List Bytes) : fusePath (c :: r) = 47 :: join (c :: r) := by
  have : ∀ l : List Bytes, eachAfterSlash l = l.flatMap (slash :: ·) := by
    intro l
    induction l with
    | nil => rfl
    | cons p l ih => rw [eachAfterSlash, ih]; rfl
  unfold fusePath
  rw [← eachAfterSlash_eq _ (by simp), this]
  rfl

theorem osParts_pieces {b : Bytes} {parts : List Bytes} (h : PiecesOf b parts) :
    osParts b = parts.filter fun p => !p.isEmpty && p != [dot] := by
  unfold osParts
  rw [pieces_eq h]
  congr 1
  funext p
  cases p <;> rfl

theorem filter_all (l : List Bytes) (h : ∀ p ∈ l, p ≠ [] ∧ p ≠ [46]) : l.filter (fun p => !p.isEmpty && p != [dot]) = l := by
  rw [List.filter_eq_self]
  intro p hp
  obtain ⟨h1, h2⟩ := h p hp
  simp only [Bool.and_eq_true, Bool.not_eq_true', List.isEmpty_eq_false_iff, bne_iff_ne, ne_eq]
  exact ⟨h1, h2⟩

theorem join_snoc (P : List Bytes) (l : Bytes) (h : P ≠ []) : join (P ++ [l]) = join P ++ 47 :: l := by
  induction P with
  | nil => exact absurd rfl h
  | cons p P ih =>
    cases P with
    | nil => rfl
    | cons q P =>
      rw [List.cons_append, join_cons_of_ne _ _ (by simp), ih (by simp), join_cons_of_ne _ (q :: P) (by simp)]
      simp

theorem last_slash {b l : Bytes} {P : List Bytes} (h : PiecesOf b (P ++ [l])) (hP : P ≠ []) :
    afterSlash b = l ∧ PiecesOf (uptoSlash b) (P ++ [[]]) := by
  obtain ⟨_, h2, rfl⟩ := h
  have hl : (47 : UInt8) ∉ l := h2 l (by simp)
  have hall : ∀ x ∈ l.reverse, (x != slash) = true := by
    intro x hx
    rw [bne_iff_ne]
    intro e
    subst e
    exact hl (List.mem_reverse.mp hx)
  have hrev : (join (P ++ [l])).reverse = l.reverse ++ (47 :: (join P).reverse) := by
    rw [join_snoc P l hP]; simp
  constructor
  · unfold afterSlash
    rw [hrev, List.takeWhile_append_of_pos hall, List.takeWhile_cons_of_neg (by decide), List.append_nil, List.reverse_reverse]
  · refine ⟨by simp, ?_, ?_⟩
    · intro p hp
      rcases List.mem_append.mp hp with e | e
      · exact h2 p (List.mem_append_left _ e)
      · rw [List.mem_singleton.mp e]; simp
    · unfold uptoSlash
      rw [hrev, List.dropWhile_append_of_pos hall, List.dropWhile_cons_of_neg (by decide), join_snoc P [] hP]
      simp

theorem forall2_ok {f : Bytes → Res Bytes} {l l' : List Bytes} (h : List.Forall₂ (fun v s => f v = .ok s) l l') :
    l' = l.map fun v => okOr (f v) := by
  induction h with
  | nil => rfl
  | cons h1 _ ih => rw [List.map_cons, ← ih, h1]; rfl

/-! ## The new translator -/

/-- The name of a component in the backing directory. -/
def NewStyle.stored (T : NewStyle) (c : Bytes) : Bytes := okOr (T.encodeComponent c)

/-- What the table of long names holds for a component: nothing for one that is not long. -/
def NewStyle.row (T : NewStyle) (c : Bytes) : Bytes := if T.threshold < c.length then okOr (encodeName T.siv c) else []

/-- The components the kernel passes. -/
def Component (c : Bytes) : Prop := c ≠ [] ∧ (47 : UInt8) ∉ c ∧ c ≠ [46] ∧ c ≠ [46, 46]

theorem row_iff {T : NewStyle} (hS : T.siv.WF) (c : Bytes) : NewStyle.row T c ≠ [] ↔ T.threshold < c.length := by
  unfold NewStyle.row
  split
  · next h =>
    obtain ⟨s, _, _, h1, _⟩ := encodeName_spec hS c
    rw [h1]
    exact ⟨fun _ => h, fun _ => encodeName_ne hS c s h1⟩
  · next h => exact ⟨fun e => absurd rfl e, fun e => absurd e h⟩

theorem scheme_newStyle (T : NewStyle) (hS : T.siv.WF) (hf : ForeignSuffix T) (hsl : (47 : UInt8) ∉ T.suffix)
    (hh : ∀ m, (T.hash m).length = 32) (N : Bytes → Prop)
    (hN : ∀ c c', N c → N c' → T.threshold < c.length → T.threshold < c'.length → T.hash c = T.hash c' → c = c') :
    Scheme T.translator (fun c => Component c ∧ N c) (fun t => t ≠ []) (NewStyle.stored T) (NewStyle.row T) where
  path := by
    intro cs hcs
    have hp := pieces_fuse cs fun c hc => (hcs c hc).1.2.1
    obtain ⟨b, f, parts', h1, h2, h3⟩ := C22_pieces T hS hh hsl _ _ hp
    have e := forall2_ok h3
    have hne : ∀ ds : List Bytes, (∀ c ∈ ds, c ∈ cs) → ∀ p ∈ ds.map (NewStyle.stored T), p ≠ [] ∧ p ≠ [46] := by
      intro ds hds p hp
      obtain ⟨c, hc, rfl⟩ := List.mem_map.mp hp
      obtain ⟨s, g1, g2, _, g3, _⟩ := C22_legal T hS hh c (hcs c (hds c hc)).1.1
      unfold NewStyle.stored
      rw [g1]
      exact ⟨g2, g3⟩
    have hf' : ∀ v, ([] :: if cs.isEmpty then [[]] else cs : List Bytes).getLast? = some v → f = NewStyle.row T v := by
      intro v hv
      have h1' := h1
      unfold NewStyle.encryptFullPath at h1'
      rw [pieces_eq hp, hv] at h1'
      obtain ⟨l', g1, _⟩ := encodeParts_spec hS ([] :: if cs.isEmpty then [[]] else cs)
      rw [g1] at h1'
      dsimp only at h1'
      unfold NewStyle.row
      by_cases hl : T.threshold < v.length
      · rw [if_pos hl] at h1'
        obtain ⟨s, _, _, h4, _⟩ := encodeName_spec hS v
        rw [h4] at h1'
        cases h1'
        rw [if_pos hl, h4]; rfl
      · rw [if_neg hl] at h1'
        cases h1'
        rw [if_neg hl]
    refine ⟨b, f, h1, ?_, ?_, ?_⟩
    · rw [osParts_pieces h2, e]
      cases cs with
      | nil => rfl
      | cons c r =>
        exact filter_all _ (hne (c :: r) fun _ h => h)
    · rintro rfl
      rw [hf' [] rfl]
      rfl
    · rintro ds c rfl
      refine ⟨hf' c (by simp [List.getLast?_cons, List.getLast?_append]), fun _ => ?_⟩
      have e' : ([46] :: parts' : List Bytes) = ([46] :: [] :: ds.map (NewStyle.stored T)) ++ [NewStyle.stored T c] := by
        rw [e]; simp [NewStyle.stored]; rfl
      rw [e'] at h2
      obtain ⟨g1, g2⟩ := last_slash h2 (by simp)
      refine ⟨?_, g1⟩
      rw [osParts_pieces g2]
      have : (([46] :: [] :: ds.map (NewStyle.stored T)) ++ [[]] : List Bytes).filter (fun p => !p.isEmpty && p != [dot]) =
          (ds.map (NewStyle.stored T)).filter fun p => !p.isEmpty && p != [dot] := by
        rw [List.filter_append]
        simp [dot]
      rw [this, filter_all _ (hne ds fun x hx => by simp [hx])]
  inj := by
    intro c c' hc hc' he
    obtain ⟨s, h1⟩ := encodeComponent_total hS c
    obtain ⟨s', h1'⟩ := encodeComponent_total hS c'
    unfold NewStyle.stored at he
    rw [h1, h1'] at he
    have he : s = s' := he
    subst he
    rcases C21_injective_partial T hS hf c c' s h1 h1' with e | ⟨e1, e2, e3⟩
    · exact e
    · exact hN c c' hc.2 hc'.2 e1 e2 e3
  shown := by
    rintro c ⟨⟨hc1, _, hc2, hc3⟩, _⟩ lookup hl
    obtain ⟨s, h1⟩ := encodeComponent_total hS c
    have hs : NewStyle.stored T c = s := by unfold NewStyle.stored; rw [h1]; rfl
    rw [hs] at hl ⊢
    by_cases ht : T.threshold < c.length
    · obtain ⟨r, _, _, h4, _⟩ := encodeName_spec hS c
      have hr : NewStyle.row T c = r := by unfold NewStyle.row; rw [if_pos ht, h4]; rfl
      refine shown_emits hS hf (.long c r hc2 hc3 ht h1 ?_ h4)
      rw [← hr]
      exact hl ((row_iff hS c).mpr ht)
    · exact shown_emits hS hf (.inline c hc1 hc2 hc3 (by omega) h1)
  table := by
    intro _ lookup
    exact shown_emits hS hf (.hidden (by decide) (by decide) (by decide))
  link := by
    intro t ht
    obtain ⟨s, parts, h1, h2, h3, h4, h5⟩ := C23_round_trip T hS t
    refine ⟨s, h1, h2, ?_, ?_, fun h => by cases h⟩
    · rw [h3]
      clear h1 h2 h3 h5
      induction parts with
      | nil => simp [eachAfterSlash]
      | cons p r ih =>
        rw [eachAfterSlash]
        have hz : (0 : UInt8) ∉ p := fun e => absurd ((h4 p (by simp)).2.2 _ e) (by decide +kernel)
        have := ih fun q hq => h4 q (List.mem_cons_of_mem _ hq)
        simp [hz, this]
    · intro e
      have := h5 ht
      rw [e] at this
      simp only [List.length_nil] at this
      omega

/-! ## The legacy translator -/

/-- The name of a component in the backing directory. -/
def legacyStored (S : Siv) (c : Bytes) : Bytes := okOr (legacyEncryptSlice S c)

theorem scheme_legacy (S : Siv) (hS : S.WF) :
    Scheme (legacyTranslator S) (fun c => Component c ∧ c.length ≤ 2000)
      (fun t => t ≠ [] ∧ ∀ parts, PiecesOf t parts → ∀ v ∈ parts, v.length ≤ 2000) (legacyStored S) (fun _ => []) where
  path := by
    intro cs hcs
    cases cs with
    | nil => exact ⟨[dot], [], rfl, rfl, fun _ => rfl, fun ds c e => by simp at e⟩
    | cons c r =>
      have hp : PiecesOf (join (c :: r)) (c :: r) := ⟨by simp, fun p hp => (hcs p hp).1.2.1, rfl⟩
      have hne : join (c :: r) ≠ [] := by
        intro e
        have hc := (hcs c (by simp)).1.1
        cases r with
        | nil => exact hc e
        | cons q r => rw [join_cons_of_ne _ _ (by simp)] at e; simp at e
      obtain ⟨l, h1, h2⟩ := legacyLoop_out hS _ _ hp fun v hv => (hcs v hv).2
      have hb : legacyEncryptLoop S [] (47 :: join (c :: r)) = .ok (slash :: join l) := by
        rw [legacyEncryptLoop, if_pos (show (47 : UInt8) = slash from rfl), h1]; rfl
      have hfull : legacyEncryptFullPath S (47 :: join (c :: r)) = .ok (join l) := by
        unfold legacyEncryptFullPath
        rw [if_neg (by simp), if_neg (by simpa [slash] using hne), hb]
        rfl
      have e := forall2_ok h2
      have hl : PiecesOf (join l) l :=
        forall2_pieces h2 (fun v s e => fun hx => slash_notin_alphabet ((legacySlice_noslash hS v s e).2 _ hx)) hp.1
      refine ⟨join l, [], ?_, ?_, fun _ => rfl, fun ds c e => ⟨rfl, fun ⟨_, h⟩ => absurd rfl h⟩⟩
      · rw [fuse_cons]
        unfold legacyTranslator
        dsimp only
        rw [hfull]
      · rw [osParts_pieces hl, filter_all, e]
        · rfl
        · rw [e]
          intro p hp'
          obtain ⟨v, hv, rfl⟩ := List.mem_map.mp hp'
          obtain ⟨s, g1, _⟩ := C21_legacy_round_trip S hS v (hcs v hv).1.1 (hcs v hv).2
          rw [g1]
          obtain ⟨k1, k2⟩ := legacySlice_noslash hS v s g1
          refine ⟨fun e => (hcs v hv).1.1 (k1.mpr e), fun e => ?_⟩
          have : (46 : UInt8) ∈ s := by rw [show s = [46] from e]; simp
          exact dot_notin_alphabet (k2 _ this)
  inj := by
    intro c c' hc hc' he
    obtain ⟨s, g1, g2⟩ := C21_legacy_round_trip S hS c hc.1.1 hc.2
    obtain ⟨s', g1', g2'⟩ := C21_legacy_round_trip S hS c' hc'.1.1 hc'.2
    unfold legacyStored at he
    rw [g1, g1'] at he
    have he : s = s' := he
    subst he
    rw [g2] at g2'
    injection g2' with e
    injection e
  shown := by
    intro c hc lookup _
    obtain ⟨s, g1, g2⟩ := C21_legacy_round_trip S hS c hc.1.1 hc.2
    obtain ⟨k1, k2⟩ := legacySlice_noslash hS c s g1
    have hs : legacyStored S c = s := by unfold legacyStored; rw [g1]; rfl
    rw [hs]
    have hd : s.head? ≠ some 46 := by
      intro e
      exact dot_notin_alphabet (k2 _ (List.mem_of_mem_head? e))
    have hn : s ≠ [] := fun e => hc.1.1 (k1.mpr e)
    intro rest name
    rw [next_translate rfl s hn hd]
    have h : ListCfg.translate ⟨false, decodeName S⟩ lookup s name = some c := by
      unfold ListCfg.translate
      dsimp only
      rw [g2]
    exact congrArg (fun o => match o with
      | none => ListCfg.next ⟨false, decodeName S⟩ lookup rest name
      | some n => some (n, rest)) h
  table := fun ⟨_, h⟩ => absurd rfl h
  link := by
    rintro t ⟨ht, hl⟩
    obtain ⟨parts, hp⟩ := pieces_exist t
    obtain ⟨s, g1, g2⟩ := (C23_legacy_round_trip S hS t parts hp).1 (hl parts hp)
    refine ⟨s, g1, g2, ?_, ?_, fun h => by cases h⟩
    · intro h0
      have g1' := g1
      unfold legacyEncryptSymlink at g1'
      rw [if_neg (by simpa using ht)] at g1'
      split at g1'
      · cases g1'
        revert h0; decide
      · rcases alphabet_head_ne hS t s g1' 0 h0 with e | e
        · revert e; decide
        · revert e; decide +kernel
    · rintro rfl
      apply ht
      have : legacyDecryptSymlink S [] = .ok [] := rfl
      rw [g2] at this
      cases this
      rfl

/-! ## The translator that does nothing -/

theorem scheme_noOp : Scheme noOpTranslator Component (fun t => t ≠ [] ∧ (0 : UInt8) ∉ t) id (fun _ => []) where
  path := by
    intro cs hcs
    have hp := pieces_fuse cs fun c hc => (hcs c hc).2.1
    have hb : noOpEncryptFullPath (fusePath cs) = dot :: fusePath cs := by
      unfold noOpEncryptFullPath
      rw [if_pos]
      cases cs with
      | nil => rfl
      | cons c r => rw [fuse_cons]; rfl
    have h2 : PiecesOf (dot :: fusePath cs) ([46] :: if cs.isEmpty then [[]] else cs) := by
      refine ⟨by simp, ?_, ?_⟩
      · intro p h
        rcases List.mem_cons.mp h with rfl | h
        · decide
        · exact hp.2.1 p (List.mem_cons_of_mem _ h)
      · have := hp.2.2
        have hn : (if cs.isEmpty then [[]] else cs) ≠ [] := by cases cs <;> simp
        rw [join_cons_of_ne _ _ hn] at this ⊢
        rw [← this]; rfl
    refine ⟨dot :: fusePath cs, [], ?_, ?_, fun _ => rfl, fun ds c e => ⟨rfl, fun ⟨_, h⟩ => absurd rfl h⟩⟩
    · show Except.ok (noOpEncryptFullPath (fusePath cs), []) = _
      rw [hb]
    · rw [osParts_pieces h2, List.map_id]
      cases cs with
      | nil => rfl
      | cons c r => exact filter_all _ fun p hp => ⟨(hcs p hp).1, (hcs p hp).2.2.1⟩
  inj := fun _ _ _ _ e => e
  shown := by
    intro c hc lookup _ rest name
    rw [ListCfg.next]
    simp [noOpTranslator, hc.1]
  table := fun ⟨_, h⟩ => absurd rfl h
  link := fun t ht => ⟨t, rfl, rfl, ht.2, ht.1, fun _ => rfl⟩

end Securefs.Props

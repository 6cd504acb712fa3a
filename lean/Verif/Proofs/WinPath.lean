import Verif.Model.WinOs
import Verif.Spec.Win
import Mathlib.Data.List.Basic
/-!
# Lemmas on paths, large reads and writes, and the cursor of Windows
-/

namespace Securefs.Win

open Spec.Win

/-! ### Paths -/

theorem splitSep_append : ∀ (a cur b : Bytes) (c : UInt8), isSep c = true →
    splitSep cur (a ++ c :: b) = splitSep cur a ++ splitSep [] b
  | [], cur, b, c, h => by
    show splitSep cur (c :: b) = [cur] ++ _
    unfold splitSep
    rw [if_pos h]
    cases b <;> rfl
  | x :: a, cur, b, c, h => by
    rw [List.cons_append, splitSep, splitSep]
    split
    · rw [splitSep_append a [] b c h]
      rfl
    · exact splitSep_append a _ b c h

theorem splitSep_eq : ∀ (l cur : Bytes), splitSep cur l = (l.splitOnP sep).modifyHead (cur ++ ·)
  | [], cur => by simp [splitSep]
  | c :: l, cur => by
    rw [splitSep, List.splitOnP_cons_eq_if_modifyHead]
    by_cases h : isSep c = true
    · rw [if_pos h, if_pos (show sep c = true from h), splitSep_eq l []]
      cases l.splitOnP sep <;> simp
    · rw [if_neg h, if_neg (show ¬ sep c = true from h), splitSep_eq l]
      cases l.splitOnP sep <;> simp

theorem filter_split (p : Bytes) : (splitSep [] p).filter keepPiece = comps p := by
  have e : splitSep [] p = p.splitOnP sep := by
    rw [splitSep_eq]
    cases p.splitOnP sep <;> simp
  unfold comps
  rw [e]
  apply List.filter_congr
  intro s _
  unfold keepPiece
  cases s with
  | nil => simp
  | cons a b => by_cases h : a :: b = [46] <;> simp [h]

theorem stack_eq : ∀ (l acc : List Bytes), stackPieces acc l = resolve acc l
  | [], _ => rfl
  | p :: l, acc => by
    unfold stackPieces resolve
    rw [List.foldl_cons]
    by_cases h : p = [46, 46]
    · rw [if_pos h, if_pos h]
      exact stack_eq l _
    · rw [if_neg h, if_neg h]
      exact stack_eq l _

theorem comps_join (base path : Bytes) : (splitSep [] (joinBuffer base path)).filter keepPiece = comps base ++ comps path := by
  unfold joinBuffer
  rw [splitSep_append base [] path bslash (by decide), List.filter_append, filter_split, filter_split]

theorem resolve_append (d a b : List Bytes) : resolve d (a ++ b) = resolve (resolve d a) b := List.foldl_append ..

theorem piecesOf_eq (base path : Bytes) : piecesOf base path = resolve (resolve [] (comps base)) (comps path) := by
  unfold piecesOf
  rw [comps_join, stack_eq, resolve_append]

/-- Sum of the lengths of the pieces, each with its separator. -/
def cost (l : List Bytes) : Nat := (l.map fun s => s.length + 1).sum

theorem cost_append (a b : List Bytes) : cost (a ++ b) = cost a + cost b := by simp [cost]

theorem cost_dropLast (l : List Bytes) : cost l.dropLast ≤ cost l := by
  rcases List.eq_nil_or_concat l with rfl | ⟨x, y, rfl⟩
  · exact Nat.le_refl _
  · rw [List.concat_eq_append, List.dropLast_concat, cost_append]
    omega

theorem cost_resolve : ∀ (l acc : List Bytes), cost (resolve acc l) ≤ cost acc + cost l
  | [], acc => Nat.le_add_right _ _
  | p :: l, acc => by
    have ec : cost (p :: l) = p.length + 1 + cost l := by simp [cost]
    show cost (resolve (if p = [46, 46] then acc.dropLast else acc ++ [p]) l) ≤ _
    refine Nat.le_trans (cost_resolve l _) ?_
    split
    · have := cost_dropLast acc
      omega
    · rw [cost_append, show cost [p] = p.length + 1 by simp [cost]]
      omega

theorem cost_filter (f : Bytes → Bool) : ∀ l : List Bytes, cost (l.filter f) ≤ cost l
  | [] => Nat.le_refl _
  | p :: l => by
    have ec : cost (p :: l) = p.length + 1 + cost l := by simp [cost]
    have ih := cost_filter f l
    rw [List.filter_cons]
    split
    · rw [show cost (p :: l.filter f) = p.length + 1 + cost (l.filter f) by simp [cost]]
      omega
    · omega

theorem cost_split : ∀ (l cur : Bytes), cost (splitSep cur l) = cur.length + l.length + 1
  | [], cur => by simp [splitSep, cost]
  | c :: l, cur => by
    rw [splitSep]
    split
    · rw [show cost (cur :: splitSep [] l) = cur.length + 1 + cost (splitSep [] l) by simp [cost], cost_split l []]
      simp only [List.length_nil, List.length_cons]
      omega
    · rw [cost_split l]
      simp only [List.length_append, List.length_cons, List.length_nil]
      omega

theorem tail_length (base : Bytes) (ps : List Bytes) : (normTail base ps).length ≤ 3 + cost ps := by
  have e : (ps.flatMap (bslash :: ·)).length = cost ps := by
    induction ps with
    | nil => rfl
    | cons p ps ih =>
      rw [List.flatMap_cons, List.length_append, ih]
      simp [cost]
  unfold normTail
  rw [List.length_append, e]
  split <;> simp

/-- The views stay valid: `buffer` never grows beyond what was reserved. -/
theorem no_growth (base path : Bytes) :
    (joinBuffer base path).length + (normTail base (piecesOf base path)).length ≤ 2 * (base.length + path.length) + 15 := by
  have h1 := tail_length base (piecesOf base path)
  have h2 : cost (piecesOf base path) ≤ base.length + path.length + 2 := by
    unfold piecesOf
    rw [stack_eq]
    refine Nat.le_trans (cost_resolve _ _) ?_
    have := cost_filter keepPiece (splitSep [] (joinBuffer base path))
    rw [cost_split] at this
    simp only [joinBuffer, List.length_append, List.length_cons, List.length_nil, cost, List.map_nil, List.sum_nil] at this ⊢
    omega
  simp only [joinBuffer, List.length_append, List.length_cons]
  omega

theorem concatNorm_eq (base path : Bytes) (hb : base ≠ []) (hb' : isAbsolute base = true) (hp : isAbsolute path = false) :
    concatNorm base path = .ok (literal ([92, 92].isPrefixOf base) (resolve (resolve [] (comps base)) (comps path))) := by
  unfold concatNorm
  rw [if_neg (by rw [hp]; cases base <;> simp_all), if_neg (by rw [hb']; decide)]
  dsimp only
  rw [if_pos (no_growth base path), piecesOf_eq]
  rfl

/-- A name of a component. -/
def Name (s : Bytes) : Prop := s ≠ [] ∧ s ≠ [46] ∧ ∀ c ∈ s, sep c = false

theorem split_names : ∀ (l cur : Bytes), (∀ c ∈ cur, isSep c = false) → ∀ s ∈ splitSep cur l, ∀ c ∈ s, isSep c = false
  | [], cur, h, s, hs => by
    rw [splitSep, List.mem_singleton] at hs
    rw [hs]
    exact h
  | x :: l, cur, h, s, hs => by
    rw [splitSep] at hs
    split at hs
    · rcases List.mem_cons.mp hs with e | hs
      · rw [e]
        exact h
      · exact split_names l [] (fun c hc => by cases hc) s hs
    · rename_i hx
      refine split_names l (cur ++ [x]) (fun c hc => ?_) s hs
      rcases List.mem_append.mp hc with hc | hc
      · exact h c hc
      · rw [List.mem_singleton.mp hc]
        simpa using hx

theorem comps_names (p : Bytes) : ∀ s ∈ comps p, Name s := by
  intro s hs
  have hs' := hs
  rw [← filter_split] at hs'
  have h1 := split_names p [] (fun c hc => by cases hc) s (List.mem_filter.mp hs').1
  have h2 := (List.mem_filter.mp hs).2
  rw [decide_eq_true_iff] at h2
  exact ⟨h2.1, h2.2, h1⟩

theorem resolve_mem : ∀ (l acc : List Bytes) (s : Bytes), s ∈ resolve acc l → s ∈ acc ∨ (s ∈ l ∧ s ≠ [46, 46])
  | [], acc, s, h => .inl h
  | p :: l, acc, s, h => by
    have h' : s ∈ resolve (if p = [46, 46] then acc.dropLast else acc ++ [p]) l := h
    rcases resolve_mem l _ s h' with h1 | ⟨h1, h2⟩
    · split at h1
      · exact .inl (List.dropLast_subset _ h1)
      · rename_i hp
        rcases List.mem_append.mp h1 with h1 | h1
        · exact .inl h1
        · rw [List.mem_singleton.mp h1]
          exact .inr ⟨List.mem_cons_self, hp⟩
    · exact .inr ⟨List.mem_cons_of_mem _ h1, h2⟩

theorem resolve_plain : ∀ (l acc : List Bytes), [46, 46] ∉ l → resolve acc l = acc ++ l
  | [], acc, _ => (List.append_nil _).symm
  | p :: l, acc, h => by
    show resolve (if p = [46, 46] then acc.dropLast else acc ++ [p]) l = _
    rw [if_neg (fun e => h (by rw [← e]; exact List.mem_cons_self)), resolve_plain l _ (fun hm => h (List.mem_cons_of_mem _ hm)), List.append_assoc]
    rfl

theorem split_name : ∀ (s cur : Bytes), (∀ c ∈ s, sep c = false) → splitSep cur s = [cur ++ s]
  | [], cur, _ => by rw [splitSep, List.append_nil]
  | c :: s, cur, h => by
    rw [splitSep, if_neg (by rw [show isSep c = false from h c List.mem_cons_self]; decide), split_name s _ fun x hx => h x (List.mem_cons_of_mem _ hx),
      List.append_assoc]
    rfl

/-- The components of components each after a backslash are these. -/
theorem comps_flat : ∀ (cs : List Bytes), (∀ s ∈ cs, Name s) → comps (cs.flatMap (92 :: ·)) = cs
  | [], _ => by decide
  | s :: cs, h => by
    obtain ⟨h1, h2, h3⟩ := h s List.mem_cons_self
    have ih := comps_flat cs fun x hx => h x (List.mem_cons_of_mem _ hx)
    rw [List.flatMap_cons]
    have keep : keepPiece s = true := by
      unfold keepPiece
      cases s with
      | nil => exact absurd rfl h1
      | cons a b => simpa using h2
    rw [← filter_split]
    show (splitSep [] ((92 : UInt8) :: (s ++ cs.flatMap (92 :: ·)))).filter keepPiece = _
    rw [splitSep, if_pos (by decide), List.filter_cons, if_neg (by decide)]
    cases cs with
    | nil =>
      rw [List.flatMap_nil, List.append_nil, split_name s [] h3]
      simp [keep]
    | cons t cs =>
      rw [← filter_split, List.flatMap_cons, List.cons_append, splitSep, if_pos (by decide), List.filter_cons, if_neg (by decide)] at ih
      rw [List.flatMap_cons, List.cons_append, splitSep_append s [] _ 92 (by decide), List.filter_append, ih, split_name s [] h3]
      simp [keep]

/-! ### Reading and writing -/

theorem dword_join (o : Nat) (h : o < 2 ^ 64) : dwordPair (o % 2 ^ 32) (o / 2 ^ 32 % 2 ^ 32) = o := by
  unfold dwordPair
  rw [Nat.or_comm, ← Nat.shiftLeft_add_eq_or_of_lt (Nat.mod_lt _ (by decide)), Nat.shiftLeft_eq]
  omega

theorem read32_eq (c : Bytes) (o len : Nat) (h : o < 2 ^ 64) (hl : len ≤ maxBlock) : read32 c o len = Spec.read c o len := by
  unfold read32 Spec.read
  dsimp only
  rw [dword_join o h, Nat.mod_eq_of_lt (by unfold maxBlock at hl; omega)]
  split
  · rw [List.drop_eq_nil_of_le (by assumption), List.take_nil]
  · rfl

theorem readLoop_eq (c : Bytes) : ∀ (fuel o len : Nat), len < fuel → o + len < 2 ^ 64 → readLoop c fuel o len = .ok (Spec.read c o len)
  | 0, _, _, h, _ => by omega
  | fuel + 1, o, len, h, hb => by
    unfold readLoop
    by_cases hl : len > maxBlock
    · rw [if_pos hl, read32_eq c o maxBlock (by omega) (Nat.le_refl _)]
      dsimp only
      have hlen : (Spec.read c o maxBlock).length = min maxBlock (c.length - o) := by
        unfold Spec.read
        rw [List.length_take, List.length_drop]
      by_cases h0 : (Spec.read c o maxBlock).length = 0
      · rw [if_pos h0]
        have hz : c.length ≤ o := by
          rw [hlen] at h0
          unfold maxBlock at h0
          omega
        unfold Spec.read
        rw [List.drop_eq_nil_of_le hz, List.take_nil]
      · rw [if_neg h0, readLoop_eq c fuel _ _ (by omega) (by rw [hlen]; unfold maxBlock at *; omega)]
        show Except.ok (_ ++ _) = Except.ok _
        congr 1
        rw [hlen]
        unfold Spec.read
        by_cases hs : c.length - o ≤ maxBlock
        · rw [Nat.min_eq_right hs, show List.drop (o + (c.length - o)) c = [] from List.drop_eq_nil_of_le (by omega), List.take_nil, List.append_nil,
            List.take_of_length_le (by rw [List.length_drop]; exact hs), List.take_of_length_le (by rw [List.length_drop]; omega)]
        · rw [Nat.min_eq_left (by omega), ← List.drop_drop, ← List.take_add, show maxBlock + (len - maxBlock) = len by omega]
    · rw [if_neg hl, read32_eq c o len (by omega) (by omega)]

theorem write32_eq (c : Bytes) (o : Nat) (d : Bytes) (h : o < 2 ^ 64) : write32 c o d = Spec.write c o d := by
  unfold write32 Spec.write
  dsimp only
  rw [dword_join o h]
  cases d with
  | nil => rfl
  | cons x d =>
    rw [if_neg (by simp), if_neg (by simp)]
    congr 2
    rw [List.take_append, zeros]
    congr 1
    rw [List.take_of_length_le (by rw [List.length_replicate]; exact Nat.le_refl _)]

theorem write_split (c : Bytes) (o m : Nat) (d : Bytes) (h0 : 0 < m) (h : m < d.length) :
    Spec.write (Spec.write c o (d.take m)) (o + m) (d.drop m) = Spec.write c o d := by
  have l1 : (d.take m).length = m := by rw [List.length_take]; omega
  have n1 : d.take m ≠ [] := fun e => by rw [e] at l1; simp at l1; omega
  have n2 : d.drop m ≠ [] := fun e => by have := congrArg List.length e; rw [List.length_drop] at this; simp at this; omega
  have n3 : d ≠ [] := fun e => by rw [e] at h; simp at h
  unfold Spec.write
  rw [if_neg n1, if_neg n2, if_neg n3]
  generalize hP : (c ++ List.replicate (o - c.length) 0).take o = P
  have lP : P.length = o := by
    rw [← hP, List.length_take, List.length_append, List.length_replicate]
    omega
  have e1 : (P ++ List.take m d).length = o + m := by rw [List.length_append, lP, l1]
  have e2 : (P ++ List.take m d ++ List.drop (o + (List.take m d).length) c ++
      List.replicate (o + m - (P ++ List.take m d ++ List.drop (o + (List.take m d).length) c).length) 0).take (o + m) = P ++ List.take m d := by
    rw [List.append_assoc (P ++ List.take m d), ← e1, List.take_left]
  have e3 : (P ++ List.take m d ++ List.drop (o + (List.take m d).length) c).drop (o + m + (List.drop m d).length) = c.drop (o + d.length) := by
    rw [List.drop_append, List.drop_eq_nil_of_le (by rw [e1]; omega), List.nil_append, e1, List.drop_drop, l1, List.length_drop]
    congr 1
    omega
  rw [e2, e3]
  simp only [List.append_assoc]
  rw [← List.append_assoc (List.take m d), List.take_append_drop]

theorem writeLoop_eq : ∀ (fuel : Nat) (c : Bytes) (o : Nat) (d : Bytes), d.length < fuel → o + d.length < 2 ^ 64 →
    writeLoop c fuel o d = .ok (Spec.write c o d)
  | 0, _, _, _, h, _ => by omega
  | fuel + 1, c, o, d, h, hb => by
    unfold writeLoop
    by_cases hl : d.length > maxBlock
    · have hm : (d.drop maxBlock).length = d.length - maxBlock := List.length_drop
      have hpos : 0 < maxBlock := by decide
      rw [if_pos hl, write32_eq _ _ _ (by omega), writeLoop_eq fuel _ _ _ (by omega) (by omega), write_split c o maxBlock d hpos hl]
    · rw [if_neg hl, write32_eq _ _ _ (by omega)]

end Securefs.Win

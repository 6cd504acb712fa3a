import Verif.Proofs.KeyCheck
import Mathlib.Tactic.Ring
/-!
# Properties C103 and C104
-/

namespace Securefs.Props

open Securefs.Spec Securefs.KeyCheck

/-- **C103** `popcount` never reads behind its table and counts the bits that are ones. -/
theorem C103_popcount (key : Bytes) : popcount key = some (onesIn key) := by
  rw [popcount, popcountLoop_spec, Nat.zero_add]

/-- **C103** The warning is given exactly for keys of which at most one eighth or at least seven eighths of the bits are ones. -/
theorem C103_warns (key : Bytes) : warnsOfKey key = some (decide (Lopsided key)) := by
  rw [warnsOfKey, C103_popcount]
  simp only [Option.map_some, Option.some.injEq, Lopsided]
  rw [← Bool.decide_or]
  congr 1
  apply propext
  omega

/-- **C103** How rare the warning is for keys that are drawn at random: among all keys of `n` bytes at most `2 * 8^(8n) / 7^(7n)` are
    warned of. -/
theorem C103_rare (n : Nat) :
    (Finset.univ.filter fun f : Fin n → Fin 256 => warnsOfKey (keyOf f) = some true).card * 7 ^ (7 * n) ≤ 2 * 8 ^ (8 * n) := by
  have hsub : (Finset.univ.filter fun f : Fin n → Fin 256 => warnsOfKey (keyOf f) = some true) ⊆
      (Finset.univ.filter fun f : Fin n → Fin 256 => 7 * n ≤ ∑ i, (8 - onesOf (f i))) ∪
      (Finset.univ.filter fun f : Fin n → Fin 256 => 7 * n ≤ ∑ i, onesOf (f i)) := by
    intro f hf
    have h := (Finset.mem_filter.mp hf).2
    rw [C103_warns, Option.some.injEq, decide_eq_true_eq, Lopsided, onesIn_keyOf] at h
    have hl : (keyOf f).length = n := by simp [keyOf]
    rw [hl] at h
    have hsum : ∑ i, (8 - onesOf (f i)) + ∑ i, onesOf (f i) = 8 * n := by
      rw [← Finset.sum_add_distrib]
      rw [Finset.sum_congr rfl (g := fun _ => 8) (fun i _ => Nat.sub_add_cancel (onesOf_le (f i)))]
      simp [Nat.mul_comm]
    rw [Finset.mem_union, Finset.mem_filter, Finset.mem_filter]
    rcases h with h | h
    · left; exact ⟨Finset.mem_univ _, by omega⟩
    · right; exact ⟨Finset.mem_univ _, by omega⟩
  have h1 := tail_bound (n := n) (fun k => 8 - onesOf k) sum_low
  have h2 := tail_bound (n := n) onesOf sum_high
  have hc := (Finset.card_le_card hsub).trans (Finset.card_union_le _ _)
  calc _ ≤ _ := Nat.mul_le_mul_right _ hc
    _ ≤ _ := by rw [Nat.add_mul, Nat.two_mul]; exact Nat.add_le_add h1 h2

/-- **C103** For the keys of 32 bytes that the program uses: fewer than one in 2^115. -/
theorem C103_rare_32 :
    (Finset.univ.filter fun f : Fin 32 → Fin 256 => warnsOfKey (keyOf f) = some true).card * 2 ^ 115 <
      Fintype.card (Fin 32 → Fin 256) := by
  have h := C103_rare 32
  generalize (Finset.univ.filter fun f : Fin 32 → Fin 256 => warnsOfKey (keyOf f) = some true).card = c at h
  rw [Fintype.card_fun, Fintype.card_fin, Fintype.card_fin]
  norm_num at h ⊢
  omega

/-- **C103 (violated)** What is warned of is not what is not random: a key of any length that is one byte again and again, with between
    two and six ones in it, is not warned of, and the empty key is. -/
theorem C103_pattern_violated :
    (∀ n b, 1 ≤ n → 2 ≤ onesIn [b] → onesIn [b] ≤ 6 → warnsOfKey (List.replicate n b) = some false) ∧ warnsOfKey [] = some true := by
  refine ⟨?_, by decide +kernel⟩
  intro n b hn h2 h6
  rw [C103_warns, Option.some.injEq, decide_eq_false_iff_not, Lopsided]
  have e : onesIn (List.replicate n b) = n * onesIn [b] := by
    simp [onesIn, List.map_replicate, List.sum_replicate]
  rw [e, List.length_replicate]
  generalize onesIn [b] = k at *
  have := Nat.mul_le_mul_left n h2
  have := Nat.mul_le_mul_left n h6
  omega

/-- The numbers are those of the first lines of a table of bits, and the bounds are met by small keys. -/
example : popcount [0, 1, 3, 0x80, 0xff] = some 12 ∧ warnsOfKey [0xff, 0xff] = some true ∧ warnsOfKey [0x0f, 0x31] = some false ∧
    warnsOfKey (List.replicate 32 0x55) = some false ∧ onesIn [0x55] = 4 := by decide +kernel

/-- All 18 of the 256 keys of one byte that are warned of, within the bound. -/
example : (Finset.univ.filter fun k : Fin 256 => warnsOfKey [UInt8.ofNat k.val] = some true).card = 18 ∧ 18 * 7 ^ 7 ≤ 2 * 8 ^ 8 := by
  decide +kernel

/-- **C104** One line is read, up to the first CR or LF and no further; the answer is the line without the blanks at both ends, and a line
    feed. -/
theorem C104_line (l t : Bytes) (e : UInt8) (hl : ∀ c ∈ l, c ≠ 13 ∧ c ≠ 10) (he : e = 13 ∨ e = 10) :
    ∃ mid, IsMiddle l mid ∧ userInput (l ++ e :: t) = (mid ++ [10], t) := by
  have h := (inputLoop_spec l t hl [] (by simp)).1 e he
  rw [userInput]
  simpa using h

/-- **C104** At the end of the input nothing is left, and what is given is no command: it has no line feed. -/
theorem C104_end (t : Bytes) (ht : ∀ c ∈ t, c ≠ 13 ∧ c ≠ 10) : (userInput t).2 = [] ∧ (10 : UInt8) ∉ (userInput t).1 := by
  have h := (inputLoop_spec t [] ht [] (by simp)).2
  refine ⟨h.1, fun hm => ?_⟩
  have := h.2 _ hm
  simp only [List.reverse_nil, List.nil_append] at this
  exact (ht _ this).2 rfl

/-- The answer to the lines of an input: the action of the first line that has one; one complaint for each line before it. -/
theorem respondLoop_spec {α : Type} (actions : Bytes → Option α) {inp : Bytes} {ls : List Bytes} {r : Bytes} (h : Lines inp ls r)
    (mids : List Bytes) (hm : List.Forall₂ IsMiddle ls mids) (fuel n : Nat) (hf : inp.length < fuel) :
    ∃ out, respondLoop actions fuel inp n = some out ∧
      out.ran = mids.findSome? (fun m => actions (m ++ [10])) ∧
      out.complaints = n + (mids.takeWhile fun m => (actions (m ++ [10])).isNone).length ∧
      (out.ran = none → out.left = []) := by
  induction h generalizing mids fuel n with
  | rest t ht =>
    cases hm
    obtain ⟨fuel, rfl⟩ : ∃ k, fuel = k + 1 := ⟨fuel - 1, by omega⟩
    obtain ⟨h1, h2⟩ := C104_end t ht
    refine ⟨⟨none, n, []⟩, ?_, rfl, rfl, fun _ => rfl⟩
    rw [respondLoop]
    rw [if_pos, h1]
    cases hg : (userInput t).1.getLast? with
    | none => simp
    | some x =>
      have : x ≠ 10 := fun hx => h2 (hx ▸ List.mem_of_getLast? hg)
      simp [this]
  | line l e t ls r hl he _ ih =>
    cases hm with
    | @cons _ m _ ms hm hms =>
    obtain ⟨fuel, rfl⟩ : ∃ k, fuel = k + 1 := ⟨fuel - 1, by omega⟩
    obtain ⟨mid, hmid, hi⟩ := C104_line l t e hl he
    cases middle_unique hmid hm
    rw [respondLoop]
    rw [hi, if_neg (by simp)]
    cases ha : actions (m ++ [10]) with
    | some a =>
      refine ⟨⟨some a, n, t⟩, by simp only, ?_, ?_, ?_⟩
      · simp [ha]
      · simp [ha]
      · intro h; cases h
    | none =>
      simp only [List.length_append, List.length_cons] at hf
      obtain ⟨out, h1, h2, h3, h4⟩ := ih ms hms fuel (n + 1) (by omega)
      refine ⟨out, by simp only; exact h1, ?_, ?_, h4⟩
      · rw [h2]; simp [ha]
      · rw [h3]; simp [ha]; omega

/-- **C104** `respond_to_user_action` comes to an end for every input.  It runs the action of the first line that is a command, complains
    once about each line before that one, and runs nothing if there is none. -/
theorem C104_action {α : Type} (actions : Bytes → Option α) (inp : Bytes) (ls mids : List Bytes) (r : Bytes) (h : Lines inp ls r)
    (hm : List.Forall₂ IsMiddle ls mids) :
    ∃ out, respond actions inp = some out ∧
      out.ran = mids.findSome? (fun m => actions (m ++ [10])) ∧
      out.complaints = (mids.takeWhile fun m => (actions (m ++ [10])).isNone).length ∧
      (out.ran = none → out.left = []) := by
  obtain ⟨out, h1, h2, h3, h4⟩ := respondLoop_spec actions h mids hm (inp.length + 1) 0 (by omega)
  exact ⟨out, h1, h2, by omega, h4⟩

/-- Every input has lines, and every line has a middle: the hypotheses of `C104_action` can always be met. -/
theorem C104_lines (inp : Bytes) : ∃ ls mids r, Lines inp ls r ∧ List.Forall₂ IsMiddle ls mids := by
  have hl : ∃ ls r, Lines inp ls r := by
    induction inp with
    | nil => exact ⟨[], [], .rest [] (by simp)⟩
    | cons c inp ih =>
      obtain ⟨ls, r, h⟩ := ih
      by_cases hc : c = 13 ∨ c = 10
      · exact ⟨_, _, .line [] c inp ls r (by simp) hc h⟩
      · have hc' : c ≠ 13 ∧ c ≠ 10 := ⟨fun e => hc (.inl e), fun e => hc (.inr e)⟩
        cases h with
        | rest _ ht =>
          refine ⟨[], _, .rest _ ?_⟩
          intro x hx
          rcases List.mem_cons.mp hx with rfl | hx
          · exact hc'
          · exact ht x hx
        | line l e t ls _ hl he h =>
          refine ⟨_, _, .line (c :: l) e t ls r ?_ he h⟩
          intro x hx
          rcases List.mem_cons.mp hx with rfl | hx
          · exact hc'
          · exact hl x hx
  obtain ⟨ls, r, h⟩ := hl
  have hm : ∃ mids, List.Forall₂ IsMiddle ls mids := by
    induction h with
    | rest => exact ⟨[], .nil⟩
    | line l e t ls r hl he _ ih =>
      obtain ⟨mids, hm⟩ := ih
      obtain ⟨mid, h, _⟩ := C104_line l t e hl he
      exact ⟨mid :: mids, .cons h hm⟩
  obtain ⟨mids, hm⟩ := hm
  exact ⟨ls, mids, r, h, hm⟩

/-- **C104 (violated)** An input in which the lines end with CR LF has an empty line behind each line, so that a complaint is printed for
    each line but the first; and a last line without an end is not run. -/
theorem C104_crlf_violated (l m : Bytes) (hl : ∀ c ∈ l, c ≠ 13 ∧ c ≠ 10) (hm : ∀ c ∈ m, c ≠ 13 ∧ c ≠ 10) :
    Lines (l ++ 13 :: 10 :: (m ++ [13, 10])) [l, [], m, []] [] ∧ Lines (l ++ 13 :: 10 :: m) [l, []] m := by
  have e : ∀ c ∈ ([] : Bytes), c ≠ 13 ∧ c ≠ 10 := by simp
  exact ⟨.line l 13 _ _ _ hl (.inl rfl) (.line [] 10 _ _ _ e (.inr rfl) (.line m 13 _ _ _ hm (.inl rfl)
      (.line [] 10 _ _ _ e (.inr rfl) (.rest [] e)))),
    .line l 13 _ _ _ hl (.inl rfl) (.line [] 10 _ _ _ e (.inr rfl) (.rest m hm))⟩

/-- " no\r\n yes \nrest": the command "yes\n" is run after two complaints, the rest is not read. -/
example : respond (fun c => if c = [121, 101, 115, 10] then some "yes" else none)
    [32, 110, 111, 13, 10, 32, 121, 101, 115, 32, 10, 114] = some ⟨some "yes", 2, [114]⟩ := by decide +kernel

/-- The same command without an end of the line. -/
example : respond (fun c => if c = [121, 101, 115, 10] then some "yes" else none) [121, 101, 115] = some ⟨none, 0, []⟩ := by
  decide +kernel

end Securefs.Props

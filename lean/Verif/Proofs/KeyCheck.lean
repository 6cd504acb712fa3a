import Verif.Model.KeyCheck
import Verif.Spec.KeyCheck
import Mathlib.Algebra.BigOperators.Ring.Finset
import Mathlib.Algebra.Order.BigOperators.Group.Finset
import Mathlib.Data.Fintype.BigOperators
import Mathlib.Algebra.BigOperators.Fin
/-!
# Lemmas about the check of keys and the prompt
-/

namespace Securefs.KeyCheck

open Securefs.Spec

/-- The ones of a byte by its value. -/
def onesOf (k : Fin 256) : Nat := ((List.range 8).filter fun i => k.val.testBit i).length

theorem popTable_spec : ∀ k : Fin 256, popTable[k.val]? = some (onesOf k) := by decide +kernel

theorem popcountLoop_spec (key : Bytes) (res : Nat) : popcountLoop key res = some (res + onesIn key) := by
  induction key generalizing res with
  | nil => rfl
  | cons b rest ih =>
    have h := popTable_spec ⟨b.toNat, b.toNat_lt⟩
    simp only [popcountLoop]
    simp only at h
    rw [h]
    simp only [ih, onesIn, onesOf, List.map_cons, List.sum_cons]
    congr 1; omega

theorem onesIn_keyOf {n : Nat} (f : Fin n → Fin 256) : onesIn (keyOf f) = ∑ i, onesOf (f i) := by
  rw [onesIn, keyOf, List.map_ofFn, List.sum_ofFn]
  apply Finset.sum_congr rfl
  intro i _
  simp only [Function.comp, onesOf]
  congr 2
  funext j
  rw [UInt8.toNat_ofNat']
  rw [Nat.mod_eq_of_lt (f i).isLt]

theorem onesOf_le : ∀ k : Fin 256, onesOf k ≤ 8 := by decide +kernel

theorem sum_low : ∑ k : Fin 256, 7 ^ (8 - onesOf k) = 8 ^ 8 := by decide +kernel

theorem sum_high : ∑ k : Fin 256, 7 ^ onesOf k = 8 ^ 8 := by decide +kernel

theorem tail_bound {n : Nat} (g : Fin 256 → Nat) (hs : ∑ k : Fin 256, 7 ^ g k = 8 ^ 8) :
    (Finset.univ.filter fun f : Fin n → Fin 256 => 7 * n ≤ ∑ i, g (f i)).card * 7 ^ (7 * n) ≤ 8 ^ (8 * n) := by
  have h1 : ∑ f : Fin n → Fin 256, 7 ^ (∑ i, g (f i)) = 8 ^ (8 * n) := by
    rw [pow_mul, ← hs, Fintype.sum_pow]
    apply Finset.sum_congr rfl
    intro f _
    exact (Finset.prod_pow_eq_pow_sum _ _ _).symm
  rw [← h1]
  calc _ = ∑ f ∈ Finset.univ.filter (fun f : Fin n → Fin 256 => 7 * n ≤ ∑ i, g (f i)), 7 ^ (7 * n) := by
          rw [Finset.sum_const]; rfl
    _ ≤ ∑ f ∈ Finset.univ.filter (fun f : Fin n → Fin 256 => 7 * n ≤ ∑ i, g (f i)), 7 ^ (∑ i, g (f i)) := by
          apply Finset.sum_le_sum
          intro f hf
          exact Nat.pow_le_pow_right (by decide) (Finset.mem_filter.mp hf).2
    _ ≤ _ := Finset.sum_le_sum_of_subset (Finset.filter_subset _ _)

theorem cSpace_iff : ∀ c : UInt8, cSpace c = true ↔ Blank c := by
  intro c
  have h : ∀ k : Fin 256, cSpace (UInt8.ofNat k.val) = true ↔ Blank (UInt8.ofNat k.val) := by decide +kernel
  have := h ⟨c.toNat, c.toNat_lt⟩
  simpa using this

theorem popSpaces_spec (r : Bytes) : ∃ p, r = p ++ popSpaces r ∧ (∀ c ∈ p, Blank c) ∧ (∀ c, (popSpaces r).head? = some c → ¬ Blank c) := by
  induction r with
  | nil => exact ⟨[], rfl, by simp, by simp [popSpaces]⟩
  | cons a r ih =>
    by_cases h : cSpace a = true
    · obtain ⟨p, e, hp, hh⟩ := ih
      refine ⟨a :: p, ?_, ?_, ?_⟩
      · rw [popSpaces, if_pos h, List.cons_append, ← e]
      · intro c hc
        rcases List.mem_cons.mp hc with rfl | hc
        · exact (cSpace_iff _).mp h
        · exact hp c hc
      · rw [popSpaces, if_pos h]; exact hh
    · refine ⟨[], ?_, by simp, ?_⟩
      · rw [popSpaces, if_neg h]; rfl
      · rw [popSpaces, if_neg h]
        intro c hc hb
        simp only [List.head?_cons, Option.some.injEq] at hc
        subst hc
        exact h ((cSpace_iff _).mpr hb)

theorem head_popSpaces (r : Bytes) (x : UInt8) (h : r.getLast? = some x) (hx : ¬ Blank x) : (popSpaces r).getLast? = some x := by
  induction r with
  | nil => simp at h
  | cons a r ih =>
    rw [popSpaces]
    split
    · next ha =>
      cases r with
      | nil =>
        simp only [List.getLast?_singleton, Option.some.injEq] at h
        subst h
        exact absurd ((cSpace_iff _).mp ha) hx
      | cons b r => exact ih (by rw [List.getLast?_cons_cons] at h; exact h)
    · exact h

/-- What `inputLoop` does from a text whose first character is not blank. -/
theorem inputLoop_spec (l t : Bytes) (hl : ∀ c ∈ l, c ≠ 13 ∧ c ≠ 10) (r : Bytes) (hr : ∀ c, r.getLast? = some c → ¬ Blank c) :
    (∀ e, e = 13 ∨ e = 10 → ∃ mid, IsMiddle (r.reverse ++ l) mid ∧ inputLoop r (l ++ e :: t) = (mid ++ [10], t)) ∧
    ((inputLoop r l).2 = [] ∧ ∀ c ∈ (inputLoop r l).1, c ∈ r.reverse ++ l) := by
  induction l generalizing r with
  | nil =>
    refine ⟨?_, ?_⟩
    · intro e he
      have hc : (e == 13 || e == 10) = true := by rcases he with rfl | rfl <;> rfl
      obtain ⟨p, hp, hb, hh⟩ := popSpaces_spec r
      refine ⟨(popSpaces r).reverse, ⟨[], p.reverse, ?_, by simp, ?_, ?_, ?_⟩, ?_⟩
      · conv_lhs => rw [hp]
        simp
      · intro c hc; exact hb c (List.mem_reverse.mp hc)
      · intro c hc
        rw [List.head?_reverse] at hc
        cases hg : r.getLast? with
        | none =>
          rw [List.getLast?_eq_none_iff] at hg
          subst hg
          simp [popSpaces] at hc
        | some x =>
          have := head_popSpaces r x hg (hr x hg)
          rw [hc] at this
          cases this
          exact hr _ hg
      · intro c hc
        rw [List.getLast?_reverse] at hc
        exact hh c hc
      · rw [List.nil_append, inputLoop, if_pos hc, List.reverse_cons]
    · rw [inputLoop]
      exact ⟨rfl, by intro c hc; simpa using hc⟩
  | cons a l ih =>
    have ha := hl a (List.mem_cons_self ..)
    have hl' : ∀ c ∈ l, c ≠ 13 ∧ c ≠ 10 := fun c hc => hl c (List.mem_cons_of_mem _ hc)
    have hne : ¬ (a == 13 || a == 10) = true := by simp [ha.1, ha.2]
    by_cases hk : (!r.isEmpty || !cSpace a) = true
    · have hr' : ∀ c, (a :: r).getLast? = some c → ¬ Blank c := by
        intro c hc
        cases r with
        | nil =>
          simp only [List.getLast?_singleton, Option.some.injEq] at hc
          subst hc
          intro hb
          rw [(cSpace_iff _).mpr hb] at hk
          simp at hk
        | cons b r => exact hr c (by rw [List.getLast?_cons_cons] at hc; exact hc)
      obtain ⟨h1, h2, h3⟩ := ih hl' (a :: r) hr'
      have er : ∀ x, inputLoop r (a :: x) = inputLoop (a :: r) x := by
        intro x; rw [inputLoop, if_neg hne, if_pos hk]
      refine ⟨?_, ?_, ?_⟩
      · intro e he
        obtain ⟨mid, hm, hi⟩ := h1 e he
        refine ⟨mid, by simpa using hm, ?_⟩
        rw [List.cons_append, er]; exact hi
      · rw [er]; exact h2
      · rw [er]; simpa using h3
    · have hre : r = [] := by
        cases r with
        | nil => rfl
        | cons b r => simp at hk
      subst hre
      have hb : Blank a := by
        apply (cSpace_iff _).mp
        simpa using hk
      obtain ⟨h1, h2, h3⟩ := ih hl' [] hr
      have er : ∀ x, inputLoop [] (a :: x) = inputLoop [] x := by
        intro x; rw [inputLoop, if_neg hne, if_neg hk]
      refine ⟨?_, ?_, ?_⟩
      · intro e he
        obtain ⟨mid, ⟨pre, post, hp, hb1, hb2, hb3, hb4⟩, hi⟩ := h1 e he
        refine ⟨mid, ⟨a :: pre, post, ?_, ?_, hb2, hb3, hb4⟩, ?_⟩
        · simp only [List.reverse_nil, List.nil_append] at hp ⊢
          rw [hp]; simp
        · intro c hc
          rcases List.mem_cons.mp hc with rfl | hc
          · exact hb
          · exact hb1 c hc
        · rw [List.cons_append, er]; exact hi
      · rw [er]; exact h2
      · rw [er]
        intro c hc
        have := h3 c hc
        simp only [List.reverse_nil, List.nil_append] at this ⊢
        exact List.mem_cons_of_mem _ this

/-- The middle of a text is determined. -/
theorem middle_unique {text a b : List UInt8} (ha : IsMiddle text a) (hb : IsMiddle text b) : a = b := by
  obtain ⟨p, q, e, h1, h2, h3, h4⟩ := ha
  obtain ⟨p', q', e', h1', h2', h3', h4'⟩ := hb
  have key : ∀ (p q a p' q' b : List UInt8), (∀ c ∈ p, Blank c) → (∀ c ∈ q, Blank c) → (∀ c, a.head? = some c → ¬ Blank c) →
      (∀ c, a.getLast? = some c → ¬ Blank c) → (∀ c ∈ p', Blank c) → (∀ c ∈ q', Blank c) → (∀ c, b.head? = some c → ¬ Blank c) →
      (∀ c, b.getLast? = some c → ¬ Blank c) → p ++ a ++ q = p' ++ b ++ q' → a = b := by
    intro p q a p' q' b h1 h2 h3 h4 h1' h2' h3' h4' e
    have mid : ∀ (p a q : List UInt8), (∀ c ∈ p, Blank c) → (∀ c ∈ q, Blank c) → (∀ c, a.head? = some c → ¬ Blank c) →
        (∀ c, a.getLast? = some c → ¬ Blank c) →
        (((p ++ a ++ q).dropWhile fun c => decide (Blank c)).reverse.dropWhile fun c => decide (Blank c)).reverse = a := by
      intro p a q h1 h2 h3 h4
      have d : ∀ (p x : List UInt8), (∀ c ∈ p, Blank c) → ((p ++ x).dropWhile fun c => decide (Blank c)) = x.dropWhile fun c => decide (Blank c) := by
        intro p x hp
        induction p with
        | nil => rfl
        | cons c p ih =>
          rw [List.cons_append, List.dropWhile_cons, if_pos (decide_eq_true (hp c (List.mem_cons_self ..)))]
          exact ih fun c hc => hp c (List.mem_cons_of_mem _ hc)
      have f : ∀ x : List UInt8, (∀ c, x.head? = some c → ¬ Blank c) → (x.dropWhile fun c => decide (Blank c)) = x := by
        intro x hx
        cases x with
        | nil => rfl
        | cons c x => rw [List.dropWhile_cons, if_neg]; simpa using hx c rfl
      rw [List.append_assoc, d p _ h1]
      cases a with
      | nil =>
        have := d q [] h2
        rw [List.append_nil] at this
        rw [List.nil_append, this]; rfl
      | cons c a =>
        rw [f (c :: a ++ q) (by intro x hx; exact h3 x hx), List.reverse_append, d q.reverse _ (by intro c hc; exact h2 c (List.mem_reverse.mp hc)),
          f _ (by intro x hx; rw [List.head?_reverse] at hx; exact h4 x hx), List.reverse_reverse]
    rw [← mid p a q h1 h2 h3 h4, ← mid p' b q' h1' h2' h3' h4', e]
  exact key p q a p' q' b h1 h2 h3 h4 h1' h2' h3' h4' (e ▸ e')

end Securefs.KeyCheck

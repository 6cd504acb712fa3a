import Verif.Model.Basic
import Mathlib.Tactic.SplitIfs
/-! Helper lemmas about byte lists. -/

namespace Securefs

/-- Finish a pointwise list equality after unfolding `getElem?` into `if`s. -/
macro "list_cases" : tactic =>
  `(tactic| (split_ifs <;> first
      | rfl
      | omega
      | (congr 1; omega)
      | (rw [List.getElem?_eq_none_iff]; omega)
      | (rw [eq_comm, List.getElem?_eq_none_iff]; omega)))

/-- Replace the bytes of `b` starting at `p` by `s` (helper of the proofs only). -/
def splice (b : Bytes) (p : Nat) (s : Bytes) : Bytes := b.take p ++ s ++ b.drop (p + s.length)

@[simp] theorem zeros_length (n : Nat) : (zeros n).length = n := by simp [zeros]

theorem zeros_getElem? (n i : Nat) : (zeros n)[i]? = if i < n then some 0 else none := by
  simp [zeros, List.getElem?_replicate]

theorem zeros_add (a b : Nat) : zeros (a + b) = zeros a ++ zeros b := by
  simp [zeros, List.replicate_append_replicate]

theorem allZeros_iff (b : Bytes) : allZeros b = true ↔ b = zeros b.length := by
  induction b with
  | nil => simp [allZeros, zeros]
  | cons x xs ih =>
    simp only [allZeros, zeros, List.all_cons, List.length_cons, List.replicate_succ,
      Bool.and_eq_true, beq_iff_eq, List.cons.injEq] at *
    rw [ih]

@[simp] theorem allZeros_zeros (n : Nat) : allZeros (zeros n) = true := by
  rw [allZeros_iff]; simp

theorem splice_length (b : Bytes) (p : Nat) (s : Bytes) (h : p ≤ b.length) :
    (splice b p s).length = max b.length (p + s.length) := by
  simp [splice]; omega

theorem getElem?_splice (b : Bytes) (p : Nat) (s : Bytes) (i : Nat) (h : p ≤ b.length) :
    (splice b p s)[i]? = if i < p then b[i]? else if i < p + s.length then s[i - p]? else b[i]? := by
  unfold splice
  rw [List.getElem?_append, List.getElem?_append]
  simp only [List.length_append, List.length_take, Nat.min_eq_left h, List.getElem?_take,
    List.getElem?_drop]
  by_cases h1 : i < p
  · rw [if_pos (by omega), if_pos h1, if_pos h1, if_pos h1]
  · by_cases h2 : i < p + s.length
    · rw [if_pos h2, if_neg h1, if_neg h1, if_pos h2]
    · rw [if_neg h2, if_neg h1, if_neg h2]
      congr 1; omega

theorem getElem?_none_iff' {l : Bytes} {i : Nat} : l[i]? = none ↔ l.length ≤ i := by simp

theorem memcpyAt_ok (buf : Bytes) (p : Nat) (s : Bytes) (h : p + s.length ≤ buf.length) :
    memcpyAt buf p s = .ok (splice buf p s) := by
  simp [memcpyAt, h, splice]

theorem splice_nil (b : Bytes) (p : Nat) : splice b p [] = b := by
  simp [splice]

end Securefs

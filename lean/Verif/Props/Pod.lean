import Verif.Spec.Pod
/-!
# C124: keys and ids are values

Theorems: `C124_values`, `C124_pointer`, `C124_wide_violated`, `C124_table`, `C124_casts`.
-/

namespace Securefs.Props

open Pod Spec

/-- **C124 (values).**  Of arrays of bytes, as all keys and ids are: a copy is what was copied, whatever the memory held; two are equal exactly if all their
    bytes are; a new one holds zeros, and one that is gone too. -/
theorem C124_values (size : Nat) (a b dst : Bytes) (ha : a.length = size) (hb : b.length = size) (hd : dst.length = size) :
    copy size a dst = a ∧ (same size a b = true ↔ a = b) ∧ (∀ x ∈ zero 1 size, x = 0) ∧ (zero 1 size).length = size ∧ (∀ x ∈ wipe a, x = 0) ∧
      (wipe a).length = size := by
  refine ⟨?_, ?_, ?_, ?_, ?_, ?_⟩
  · simp [copy, copyBytes, ← ha, show dst.length ≤ a.length by omega]
  · simp only [same, beq_iff_eq]
    rw [List.take_of_length_le (by omega), List.take_of_length_le (by omega)]
  · intro x hx; exact List.eq_of_mem_replicate hx
  · simp [zero]
  · intro x hx; exact List.eq_of_mem_replicate hx
  · simp [wipe, ha]

example : (List.replicate 32 (7 : UInt8)).length = 32 := by decide
example : same 4 [1, 2, 3, 4] [1, 2, 3, 5] = false := by decide

/-- **C124 (from a pointer).**  From a pointer: exactly the bytes there, if there are as many as there should be, and otherwise an exception. -/
theorem C124_pointer (size : Nat) (ptr dst : Bytes) (hd : dst.length = size) :
    ofPointer size ptr ptr.length dst = if ptr.length = size then .ok ptr else .error .runtime := by
  unfold ofPointer
  by_cases h : ptr.length = size
  · simp [h, copyBytes, show ptr.take size = ptr from List.take_of_length_le (by omega), show dst.drop size = [] from List.drop_of_length_le (by omega)]
  · simp [h]

example : ofPointer 4 [1, 2, 3, 4] 4 [9, 9, 9, 9] = .ok [1, 2, 3, 4] := rfl
example : ofPointer 4 [1, 2, 3] 3 [9, 9, 9, 9] = .error .runtime := rfl

/-- **C124 (wide elements, violated).**  Of arrays whose elements have more than one byte only the first bytes are copied and compared.  There are none. -/
theorem C124_wide_violated : copy 2 [1, 0, 2, 0] [9, 9, 9, 9] = [1, 0, 9, 9] ∧ same 2 [1, 0, 2, 0] [1, 0, 3, 0] = true := by decide

private theorem same_iff {a b : Bytes} (ha : a.length = 32) (hb : b.length = 32) : same idLength a b = true ↔ a = b := by
  simp only [same, beq_iff_eq, idLength]
  rw [List.take_of_length_le (by omega), List.take_of_length_le (by omega)]

/-- Keys are ids. -/
private def Keys {α : Type} (t : Chains α) : Prop := ∀ c, ∀ e ∈ t c, e.1.length = 32

private theorem find_insert {α : Type} {n : Nat} {t : Chains α} (_ : Keys t) {id : Bytes} (hi : id.length = 32) (v : α) {k : Bytes} (hk : k.length = 32) :
    find n (put n t id v) k = if k = id ∧ find n t id = none then some v else find n t k := by
  by_cases h : find n t id = none
  · by_cases hc : idHash k % n = idHash id % n
    · by_cases e : k = id
      · subst e
        have s : same idLength k k = true := (same_iff hk hk).2 rfl
        have g : find n (put n t k v) k = (((k, v) :: t (idHash k % n)).find? fun e => same idLength e.1 k).map Prod.snd := by
          rw [find, put, if_pos ⟨rfl, by simp [h]⟩]
        rw [g]
        simp [s, h]
      · have s : same idLength id k = false := by
          rw [Bool.eq_false_iff]
          intro hs
          exact e ((same_iff hi hk).1 hs).symm
        have g : find n (put n t id v) k = (((id, v) :: t (idHash k % n)).find? fun e => same idLength e.1 k).map Prod.snd := by
          rw [find, put, if_pos ⟨hc, by simp [h]⟩]
        rw [g]
        simp [s, e, find]
    · have e : k ≠ id := by rintro rfl; exact hc rfl
      rw [if_neg (by simp [e]), find, put, if_neg (by simp [hc]), ← find]
  · have hn : (find n t id).isNone = false := by
      rw [Bool.eq_false_iff, ne_eq, Option.isNone_iff_eq_none]; exact h
    rw [if_neg (by simp [h]), find, put, if_neg (by simp [hn]), ← find]

private theorem find_erase {α : Type} {n : Nat} {t : Chains α} (ks : Keys t) {id : Bytes} (hi : id.length = 32) {k : Bytes} (hk : k.length = 32) :
    find n (erase n t id) k = if k = id then none else find n t k := by
  by_cases hc : idHash k % n = idHash id % n
  · have g : find n (erase n t id) k = (((t (idHash k % n)).filter fun e => !same idLength e.1 id).find? fun e => same idLength e.1 k).map Prod.snd := by
      rw [find, erase, if_pos hc]
    rw [g]
    by_cases e : k = id
    · subst e
      rw [if_pos rfl, Option.map_eq_none_iff, List.find?_eq_none]
      intro x hx
      simpa using (List.mem_filter.1 hx).2
    · rw [if_neg e, find, List.find?_filter]
      congr 1
      have : ∀ l : List (Bytes × α), (∀ x ∈ l, x.1.length = 32) →
          l.find? (fun a => decide ((!same idLength a.1 id) = true ∧ same idLength a.1 k = true)) = l.find? fun a => same idLength a.1 k := by
        intro l hl
        induction l with
        | nil => rfl
        | cons x l ih =>
          have hx := hl x (by simp)
          have ih := ih fun y hy => hl y (by simp [hy])
          by_cases s : same idLength x.1 k = true
          · have xk := (same_iff hx hk).1 s
            have ni : same idLength x.1 id = false := by
              rw [Bool.eq_false_iff]
              intro hs
              exact e (xk.symm.trans ((same_iff hx hi).1 hs))
            simp [s, ni]
          · simp only [Bool.not_eq_true] at s
            simp only [List.find?_cons, s, Bool.false_eq_true, and_false, decide_false]
            exact ih
      simpa using this _ (ks _)
  · have e : k ≠ id := by rintro rfl; exact hc rfl
    rw [if_neg e, find, erase, if_neg hc, ← find]

private theorem runUses_find {α : Type} (n : Nat) (us : List (Use α)) : ∀ (t : Chains α) (f : Bytes → Option α), Keys t →
    (∀ k, k.length = 32 → find n t k = f k) → Ids us → ∀ k, k.length = 32 → find n (runUses n t us) k = idealUses f us k := by
  induction us with
  | nil => intro t f _ h _ k hk; exact h k hk
  | cons u us ih =>
    intro t f ks h hu k hk
    have hrest : Ids us := fun x hx => hu x (by simp [hx])
    cases u with
    | insert id v =>
      have hi : id.length = 32 := hu (.insert id v) (by simp)
      refine ih (put n t id v) _ ?_ ?_ hrest k hk
      · intro c e he
        rw [put] at he
        split at he
        · rcases List.mem_cons.1 he with rfl | he
          · exact hi
          · exact ks c e he
        · exact ks c e he
      · intro k hk
        rw [find_insert ks hi v hk, h id hi, h k hk]
    | erase id =>
      have hi : id.length = 32 := hu (.erase id) (by simp)
      refine ih (erase n t id) _ ?_ ?_ hrest k hk
      · intro c e he
        rw [erase] at he
        split at he
        · exact ks c e (List.mem_filter.1 he).1
        · exact ks c e he
      · intro k hk
        rw [find_erase ks hi hk, h k hk]

/-- **C124 (tables).**  A table with ids for keys, with any number of chains, is a map from ids to values, whatever is inserted and erased: `id_hash` and
    `operator==` fit each other. -/
theorem C124_table {α : Type} (n : Nat) (us : List (Use α)) (hu : Ids us) (k : Bytes) (hk : k.length = 32) :
    find n (runUses n (fun _ => []) us) k = idealUses (fun _ => none) us k :=
  runUses_find n us (fun _ => []) (fun _ => none) (fun _ _ h => by simp at h) (fun _ _ => rfl) hu k hk

/-- Two ids of one hash, and one of another. -/
private def idA : Bytes := List.replicate 24 1 ++ List.replicate 8 5
private def idB : Bytes := List.replicate 24 2 ++ List.replicate 8 5
private def idC : Bytes := List.replicate 24 1 ++ List.replicate 8 6
private def uses : List (Use Nat) := [.insert idA 10, .insert idB 20, .insert idA 11, .insert idC 30, .erase idC]

example : Ids uses := by
  intro u hu
  simp only [uses, List.mem_cons, List.not_mem_nil, or_false] at hu
  rcases hu with rfl | rfl | rfl | rfl | rfl <;> decide
example : idHash idA = idHash idB ∧ idHash idA ≠ idHash idC := by decide
example : [idA, idB, idC].map (find 16 (runUses 16 (fun _ => []) uses)) = [some 10, some 20, none] := by decide

/-- **C124 (casts).**  A checked cast gives the same number, or an exception exactly if there is none. -/
theorem C124_casts (v : Int) (hv : -2147483648 ≤ v ∧ v ≤ 2147483647) (u : Nat) :
    (castToSize v = if 0 ≤ v then .ok v.toNat else .error .runtime) ∧ (castToInt u = if u ≤ 2147483647 then .ok (u : Int) else .error .runtime) := by
  constructor
  · unfold castToSize
    by_cases h : v < 0
    · rw [if_pos h, if_neg (by omega)]
    · rw [if_neg h, if_pos (by omega), Int.emod_eq_of_lt (by omega) (by omega)]
  · unfold castToInt
    by_cases h : u > 2147483647
    · rw [if_pos h, if_neg (by omega)]
    · rw [if_neg h, if_pos (by omega), Nat.mod_eq_of_lt (by omega), if_pos (by omega)]

example : castToSize (-1) = .error .runtime ∧ castToInt 2147483648 = .error .runtime ∧ castToInt 2147483647 = .ok 2147483647 := ⟨rfl, rfl, rfl⟩

end Securefs.Props

import Verif.Proofs.FullFsData
/-!
# Inode numbers

Helper lemmas for `Verif/Props/Inodes.lean`.
-/

namespace Securefs.Ino

open Securefs Securefs.Spec

theorem leValue_lt : ∀ (l : Bytes), leValue l < 256 ^ l.length
  | [] => by decide
  | x :: l => by
    have h := leValue_lt l
    have hx := x.toNat_lt
    rw [leValue, List.length_cons, Nat.pow_succ]
    omega

theorem leValue_inj : ∀ (a b : Bytes), a.length = b.length → leValue a = leValue b → a = b
  | [], [], _, _ => rfl
  | [], _ :: _, h, _ => by cases h
  | _ :: _, [], h, _ => by cases h
  | x :: a, y :: b, h, e => by
    rw [leValue, leValue] at e
    have hx := x.toNat_lt
    have hy := y.toNat_lt
    have h1 : x.toNat = y.toNat := by omega
    have h2 : leValue a = leValue b := by omega
    rw [UInt8.toNat_inj.mp h1, leValue_inj a b (by simpa using h) h2]

theorem ino_inj {a b : Bytes} (ha : a.length = 32) (hb : b.length = 32) :
    2 ^ 64 - 1 - leValue (a.take 8) = 2 ^ 64 - 1 - leValue (b.take 8) ↔ a.take 8 = b.take 8 := by
  have la : (a.take 8).length = 8 := by rw [List.length_take]; omega
  have lb : (b.take 8).length = 8 := by rw [List.length_take]; omega
  refine ⟨fun e => ?_, fun e => by rw [e]⟩
  have h1 := leValue_lt (a.take 8)
  have h2 := leValue_lt (b.take 8)
  rw [la] at h1
  rw [lb] at h2
  refine leValue_inj _ _ (la.trans lb.symm) ?_
  have : (256 : Nat) ^ 8 = 2 ^ 64 := by decide
  omega

end Securefs.Ino

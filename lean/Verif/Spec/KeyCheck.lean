import Mathlib.Data.List.OfFn
import Mathlib.Data.Fintype.Pi
/-!
# Specification: bits of a key, lines of an input

Nothing here refers to the model.
-/

namespace Securefs.Spec

/-- How many bits of a byte string are ones. -/
def onesIn (key : List UInt8) : Nat := (key.map fun b => ((List.range 8).filter fun i => b.toNat.testBit i).length).sum

/-- At most one eighth or at least seven eighths of the bits are ones. -/
def Lopsided (key : List UInt8) : Prop := 8 * onesIn key ≤ 8 * key.length ∨ 7 * (8 * key.length) ≤ 8 * onesIn key

instance (key : List UInt8) : Decidable (Lopsided key) := by unfold Lopsided; infer_instance

/-- The byte string with these values. -/
def keyOf {n : Nat} (f : Fin n → Fin 256) : List UInt8 := List.ofFn fun i => UInt8.ofNat (f i).val

/-- Blanks, tabs, line ends, form feeds. -/
def Blank (c : UInt8) : Prop := c ∈ ([32, 9, 10, 11, 12, 13] : List UInt8)

instance (c : UInt8) : Decidable (Blank c) := by unfold Blank; infer_instance

/-- The middle of a text: what is left without the blanks at both ends. -/
def IsMiddle (text mid : List UInt8) : Prop :=
  ∃ pre post, text = pre ++ mid ++ post ∧ (∀ c ∈ pre, Blank c) ∧ (∀ c ∈ post, Blank c) ∧
    (∀ c, mid.head? = some c → ¬ Blank c) ∧ (∀ c, mid.getLast? = some c → ¬ Blank c)

/-- The lines of an input, each up to a CR or an LF, in order, and what comes behind the last. -/
inductive Lines : List UInt8 → List (List UInt8) → List UInt8 → Prop
  | rest (t) : (∀ c ∈ t, c ≠ 13 ∧ c ≠ 10) → Lines t [] t
  | line (l e t ls r) : (∀ c ∈ l, c ≠ 13 ∧ c ≠ 10) → e = 13 ∨ e = 10 → Lines t ls r → Lines (l ++ e :: t) (l :: ls) r

end Securefs.Spec

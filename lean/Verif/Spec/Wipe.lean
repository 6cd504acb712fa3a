import Verif.Model.Wipe
/-!
# Memory that does not tell the password

Memory tells nothing of a password but its length if it is the same for any other password of that length.
-/

namespace Securefs.Spec

open Securefs.Wipe (Mem)

/-- A password that can be typed. -/
def Typable (p : Bytes) : Prop := p.length ≤ 4000 ∧ ∀ c ∈ p, c ≠ 10 ∧ c ≠ 13

/-- All memory but the buffer of `stdin`, which belongs to the C library. -/
def ownMemory (m : Mem) : Bytes × Bytes × List Bytes × Bytes × Bytes × Bytes := (m.frame, m.block, m.freed, m.option, m.argv, m.input)

/-- All memory but the arguments of the process. -/
def besideArgv (m : Mem) : Bytes × Bytes × List Bytes × Bytes × Bytes × Bytes := (m.frame, m.block, m.freed, m.option, m.stdio, m.input)

/-- The user types the line `p`, and then `rest`. -/
def typing (m : Mem) (p rest : Bytes) : Mem := { m with input := p ++ 10 :: rest }

/-- The password is an option of the command line, of which the library has a copy. -/
def asOption (m : Mem) (p : Bytes) : Mem := { m with option := p, argv := p }

end Securefs.Spec

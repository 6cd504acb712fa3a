import Verif.Model.Basic
/-!
# What extended attributes are

A file has a finite map from names to values.  This file does not refer to the model of the code.
-/

namespace Securefs.Spec

/-- The extended attributes of a file. -/
abbrev AttrMap := Bytes → Option Bytes

/-- A call.  `refused`: the system has refused with this error number (no space, no support, …). -/
inductive XOp where
  | get (name : Bytes) (buf : Option Bytes) (position : Nat)
  | set (name value : Bytes) (flags : BitVec 32) (position : Nat) (refused : Option Nat)
  | remove (name : Bytes) (refused : Option Nat)

/-- What the manual pages `getxattr(2)`, `setxattr(2)`, `removexattr(2)` say: the answer (a number, and the buffer of the caller
    afterwards) and the attributes afterwards.  A position other than zero is invalid. -/
def xattrStep (m : AttrMap) : XOp → Res (Nat × Option Bytes) × AttrMap
  | .get name buf position =>
    if position ≠ 0 then (.error (.vfs 22), m)
    else
      match m name, buf with
      | none, _ => (.error (.vfs 61), m)
      | some v, none => (.ok (v.length, none), m)
      | some v, some b =>
        if b.length < v.length then (.error (.vfs 34), m) else (.ok (v.length, some (v ++ b.drop v.length)), m)
  | .set name value flags position refused =>
    if position ≠ 0 then (.error (.vfs 22), m)
    else
      match refused with
      | some n => (.error (.vfs n), m)
      | none =>
        if flags.getLsbD 0 ∧ m name ≠ none then (.error (.vfs 17), m)
        else if flags.getLsbD 1 ∧ m name = none then (.error (.vfs 61), m)
        else (.ok (0, none), fun n => if n = name then some value else m n)
  | .remove name refused =>
    match refused with
    | some n => (.error (.vfs n), m)
    | none => if m name = none then (.error (.vfs 61), m) else (.ok (0, none), fun n => if n = name then none else m n)

/-- A history: all answers, and the attributes at the end. -/
def xattrRun (m : AttrMap) : List XOp → List (Res (Nat × Option Bytes)) × AttrMap
  | [] => ([], m)
  | op :: rest =>
    let r := xattrStep m op
    let q := xattrRun r.2 rest
    (r.1 :: q.1, q.2)

end Securefs.Spec

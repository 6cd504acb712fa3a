import Verif.Spec.ByteFile
/-!
# Specification: a file some calls on which fail

What a user of an open file expects when the system below runs out of space or refuses calls: a call that fails may spoil
the part of the file that it covers, in units of blocks, and nothing else.  Encryption and the layout on disk do not occur.
-/

namespace Securefs.Spec

/-- The calls on an open file. -/
inductive FileCall where
  | read (off len : Nat)
  | write (off : Nat) (d : Bytes)
  | resize (n : Nat)
  | size

/-- The call as one of those of the plain byte array. -/
def FileCall.op : FileCall → Op
  | .read off len => .read off len
  | .write off d => .write off d
  | .resize n => .resize n
  | .size => .size

/-- The `i`-th block of a file. -/
def block (bs : Nat) (c : Bytes) (i : Nat) : Bytes := (c.drop (i * bs)).take bs

/-- The blocks that a call on a file of `len` bytes has to change: for a write those that it overlaps and those between the end
    of the file and its start, for a truncation or an extension those between the old and the new end. -/
def FileCall.covers (bs len : Nat) : FileCall → Nat → Prop
  | .write off d, i => d ≠ [] ∧ min off len / bs ≤ i ∧ i * bs < off + d.length
  | .resize n, i => n ≠ len ∧ min n len / bs ≤ i ∧ i * bs < max n len
  | _, _ => False

/-- The blocks whose content after a successful call does not depend on what was there: those that a write replaces as a whole, and
    those that a truncation removes. -/
def FileCall.renews (bs len : Nat) : FileCall → Nat → Prop
  | .write off d, i => off ≤ i * bs ∧ i * bs + bs ≤ off + d.length
  | .resize n, i => n ≠ len ∧ n ≤ i * bs
  | _, _ => False

/-- A file, and which of its blocks are known to be intact. -/
structure Frail where
  content : Bytes
  intact : Nat → Prop

/-- The answer of a call is determined: it is not a read that asks for a block that may be spoilt. -/
def Frail.determined (bs : Nat) (f : Frail) : FileCall → Prop
  | .read off len => ∀ i, off / bs ≤ i → i * bs < off + len → f.intact i
  | _ => True

/-- One call, which succeeds with an answer or fails.
    * If it succeeds, the file changes as the plain byte array does; intact blocks stay intact and blocks that are replaced as a whole become
      intact; the answer is that of the byte array if no spoilt block is asked for.
    * If it fails, the blocks that it covers may be spoilt.  The other blocks that were intact are, and have their content. -/
def Frail.Step (bs : Nat) (f : Frail) (call : FileCall) : Except Err Out → Frail → Prop
  | .ok out, f' =>
    f'.content = (step f.content call.op).1 ∧
    (∀ i, f'.intact i ↔ f.intact i ∨ call.renews bs f.content.length i) ∧
    (f.determined bs call → out = (step f.content call.op).2)
  | .error _, f' =>
    (∀ i, f'.intact i ↔ f.intact i ∧ ¬ call.covers bs f.content.length i) ∧
    (∀ i, f'.intact i → block bs f'.content i = block bs f.content i) ∧
    ((∀ i, ¬ call.covers bs f.content.length i) → f'.content = f.content)

/-- A history of calls and their outcomes. -/
inductive Frail.Run (bs : Nat) : Frail → List (FileCall × Except Err Out) → Frail → Prop
  | nil (f : Frail) : Run bs f [] f
  | cons {f f1 f' : Frail} {call : FileCall} {r : Except Err Out} {rest : List (FileCall × Except Err Out)} :
      f.Step bs call r f1 → Run bs f1 rest f' → Run bs f ((call, r) :: rest) f'

end Securefs.Spec

import Verif.Model.Basic
/-!
# Specification: a file is an array of bytes

This is what a user of a file expects.  It mentions neither blocks nor encryption.
-/

namespace Securefs.Spec

/-- Reading `len` bytes at `off`: what is there, short at the end of the file. -/
def read (c : Bytes) (off len : Nat) : Bytes := (c.drop off).take len

/-- `truncate`: cut, or extend with zeros. -/
def resize (c : Bytes) (n : Nat) : Bytes := c.take n ++ List.replicate (n - c.length) 0

/-- Writing `d` at `off`: nothing for an empty write, otherwise the gap (if any) becomes zeros
    and the bytes are replaced. -/
def write (c : Bytes) (off : Nat) (d : Bytes) : Bytes :=
  if d = [] then c
  else (c ++ List.replicate (off - c.length) 0).take off ++ d ++ c.drop (off + d.length)

/-- The calls a user can make, and closing the file and opening it again. -/
inductive Op where
  | read (off len : Nat)
  | write (off : Nat) (d : Bytes)
  | resize (n : Nat)
  | size
  | reopen

/-- What a call returns. -/
inductive Out where
  | bytes (b : Bytes)
  | done
  | size (n : Nat)
  deriving DecidableEq

/-- The ideal behaviour of one call. -/
def step (c : Bytes) : Op → Bytes × Out
  | .read off len => (c, .bytes (read c off len))
  | .write off d => (write c off d, .done)
  | .resize n => (resize c n, .done)
  | .size => (c, .size c.length)
  | .reopen => (c, .done)

/-- The ideal behaviour of a history of calls. -/
def run (c : Bytes) : List Op → Bytes × List Out
  | [] => (c, [])
  | op :: ops =>
    let (c1, o) := step c op
    let (c2, os) := run c1 ops
    (c2, o :: os)

/-- The largest file position a call touches; used to state "within the size limit". -/
def Op.extent : Op → Nat
  | .read off len => off + len
  | .write off d => off + d.length
  | .resize n => n
  | .size => 0
  | .reopen => 0

end Securefs.Spec
